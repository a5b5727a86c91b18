import Verif.Model.Stack
import Verif.Spec.Vector
/-! # Specification of `Stack`: a list whose head is the top -/
namespace Stl4go
variable {T : Type}

/-- Operations of a client. -/
inductive KOp (T : Type) where
  | new                    -- `s = NewStack()`
  | newCap (c : Int)       -- `s = NewStackCap(c)`
  | push (x : T)
  | pop
  | tryPop
  | top
  | clear
  | len
  | isEmpty

/-- One operation on a list of elements, last in first. -/
def KSeq.step [GoZero T] : List T → KOp T → DObs T × List T
  | _, .new => (.unit, [])
  | s, .newCap c => if 0 ≤ c then (.unit, []) else (.panicked, s)
  | s, .push x => (.unit, x :: s)
  | [], .pop => (.panicked, [])
  | x :: s, .pop => (.val x, s)
  | [], .tryPop => (.try_ GoZero.zero false, [])
  | x :: s, .tryPop => (.try_ x true, s)
  | [], .top => (.panicked, [])
  | x :: s, .top => (.val x, x :: s)
  | _, .clear => (.unit, [])
  | s, .len => (.num s.length, s)
  | s, .isEmpty => (.flag (s.length == 0), s)

/-- Any number of stacks, named by numbers. -/
def KSeq.run [GoZero T] : (Nat → List T) → List (Nat × KOp T) → List (DObs T) × (Nat → List T)
  | w, [] => ([], w)
  | w, (i, op) :: ops =>
    let r := KSeq.step (w i) op
    let rest := KSeq.run (fun j => if j = i then r.2 else w j) ops
    (r.1 :: rest.1, rest.2)

/-- One client operation on the model. -/
def Stk.exec [GoZero T] (grow : Nat → Nat → Nat) (s : VS T) : KOp T → DObs T × VS T
  | .new => VS.observe (fun _ => .unit) Stk.new s
  | .newCap c => VS.observe (fun _ => .unit) (Stk.newCap c) s
  | .push x => VS.observe (fun _ => .unit) (Stk.push grow x) s
  | .pop => VS.observe .val Stk.pop s
  | .tryPop => VS.observe (fun r => .try_ r.1 r.2) Stk.tryPop s
  | .top => VS.observe .val Stk.top s
  | .clear => VS.observe (fun _ => .unit) Stk.clear s
  | .len => VS.observe .num Stk.len s
  | .isEmpty => VS.observe .flag Stk.isEmpty s

/-- A history on several stacks. `VWorld` holds their `elements` fields. -/
def VWorld.runStacks [GoZero T] (grow : Nat → Nat → Nat) : VWorld T → List (Nat × KOp T) → List (DObs T) × VWorld T
  | w, [] => ([], w)
  | w, (i, op) :: ops =>
    let r := Stk.exec grow { mem := w.mem, v := w.vars i } op
    let rest := VWorld.runStacks grow { mem := r.2.mem, vars := fun j => if j = i then r.2.v else w.vars j } ops
    (r.1 :: rest.1, rest.2)

/-- The array of a stack: the elements, top first, and the slots above the top, lowest first. -/
abbrev KSlots (T : Type) := List T × List T

/-- What one operation does to the array: `Push` takes the lowest unused slot, or copies the elements to a new array whose other slots are zero
if there is none; `Pop`, `TryPop` and `Clear` leave everything where it is. -/
def KSlots.step [GoZero T] (grow : Nat → Nat → Nat) : KSlots T → KOp T → KSlots T
  | _, .new => ([], [])
  | (s, g), .newCap c => if 0 ≤ c then ([], List.replicate c.toNat GoZero.zero) else (s, g)
  | (s, []), .push x => (x :: s, List.replicate (grow s.length (s.length + 1) - (s.length + 1)) GoZero.zero)
  | (s, _ :: g), .push x => (x :: s, g)
  | ([], g), .pop => ([], g)
  | (x :: s, g), .pop => (s, x :: g)
  | ([], g), .tryPop => ([], g)
  | (x :: s, g), .tryPop => (s, x :: g)
  | (s, g), .clear => ([], s.reverse ++ g)
  | (s, g), .top => (s, g)
  | (s, g), .len => (s, g)
  | (s, g), .isEmpty => (s, g)

/-- The arrays of any number of stacks. -/
def KSlots.run [GoZero T] (grow : Nat → Nat → Nat) : (Nat → KSlots T) → List (Nat × KOp T) → Nat → KSlots T
  | w, [] => w
  | w, (i, op) :: ops => KSlots.run grow (fun j => if j = i then KSlots.step grow (w i) op else w j) ops

/-- The values pushed in a history. -/
def KOp.pushed : List (Nat × KOp T) → List T
  | [] => []
  | (_, .push x) :: h => x :: KOp.pushed h
  | _ :: h => KOp.pushed h

end Stl4go
