import Verif.Model.SList
import Verif.Spec.Deque
/-! # Specification of a sequence with push at both ends, pop at the front and reversal -/
namespace Stl4go
variable {T : Type}

inductive LOp (T : Type) where
  | make (vs : List T)        -- `l = SListOf(vs...)`
  | pushFront (v : T)
  | pushBack (v : T)
  | popFront
  | reverse
  | front
  | back
  | len
  | isEmpty
  | clear
  | values
  | iterate                   -- list the elements with an iterator

/-- One operation on a sequence. -/
def LSeq.step (s : List T) : LOp T → DObs T × List T
  | .make vs => (.unit, vs)
  | .pushFront v => (.unit, v :: s)
  | .pushBack v => (.unit, s ++ [v])
  | .popFront => match s with
    | [] => (.panicked, [])
    | v :: s => (.val v, s)
  | .reverse => (.unit, s.reverse)
  | .front => match s with
    | [] => (.panicked, [])
    | v :: s => (.val v, v :: s)
  | .back => match s.getLast? with
    | none => (.panicked, [])
    | some v => (.val v, s)
  | .len => (.num s.length, s)
  | .isEmpty => (.flag s.isEmpty, s)
  | .clear => (.unit, [])
  | .values => (.list s, s)
  | .iterate => (.list s, s)

/-- Any number of sequences, named by numbers. -/
def LSeq.run : (Nat → List T) → List (Nat × LOp T) → List (DObs T) × (Nat → List T)
  | w, [] => ([], w)
  | w, (i, op) :: ops =>
    let r := LSeq.step (w i) op
    let rest := LSeq.run (fun j => if j = i then r.2 else w j) ops
    (r.1 :: rest.1, rest.2)

/-! ## Running the model -/

/-- Turn a result into an observation. -/
def LS.observe {α : Type} (f : α → DObs T) (m : GoM (LS T) α) (s : LS T) : DObs T × LS T :=
  match m s with
  | .ok a s' => (f a, s')
  | .panic s' => (.panicked, s')
  | .diverge => (.hung, s)

/-- One client operation on the model. -/
def LL.exec [GoZero T] (s : LS T) : LOp T → DObs T × LS T
  | .make vs => LS.observe (fun _ => .unit) (LL.slistOf vs) s
  | .pushFront v => LS.observe (fun _ => .unit) (LL.pushFront v) s
  | .pushBack v => LS.observe (fun _ => .unit) (LL.pushBack v) s
  | .popFront => LS.observe .val LL.popFront s
  | .reverse => LS.observe (fun _ => .unit) LL.reverse s
  | .front => LS.observe .val LL.front s
  | .back => LS.observe .val LL.back s
  | .len => LS.observe .num LL.len s
  | .isEmpty => LS.observe .flag LL.isEmpty s
  | .clear => LS.observe (fun _ => .unit) LL.clear s
  | .values => LS.observe .list LL.values s
  | .iterate => LS.observe .list (do let it ← LL.iterate; it.collect (s.heap.length + 1)) s

/-- Several `SList` variables over one heap. -/
structure LWorld (T : Type) where
  heap : List (LNode T)
  vars : Nat → LL

/-- All variables hold the zero value `SList[T]{}`. -/
def LWorld.init : LWorld T := { heap := [], vars := fun _ => {} }

/-- A history on several lists. -/
def LWorld.run [GoZero T] : LWorld T → List (Nat × LOp T) → List (DObs T) × LWorld T
  | w, [] => ([], w)
  | w, (i, op) :: ops =>
    let r := LL.exec { heap := w.heap, l := w.vars i } op
    let rest := LWorld.run { heap := r.2.heap, vars := fun j => if j = i then r.2.l else w.vars j } ops
    (r.1 :: rest.1, rest.2)

/-- The lists after the contents of list `i` were replaced: whatever the client does next, it sees `s'` in list `i`, `s` elsewhere. -/
def LWorld.Becomes [GoZero T] (w : LWorld T) (i : Nat) (st : LS T) (s : Nat → List T) (s' : List T) : Prop :=
  ∀ ops, (LWorld.run { heap := st.heap, vars := fun j => if j = i then st.l else w.vars j } ops).1 =
    (LSeq.run (fun j => if j = i then s' else s j) ops).1

/-- Observations of the operations on list `i`. -/
def LSeq.obsOf (i : Nat) : List (Nat × LOp T) → List (DObs T) → List (DObs T)
  | (j, _) :: h, o :: os => if j = i then o :: LSeq.obsOf i h os else LSeq.obsOf i h os
  | _, _ => []

end Stl4go
