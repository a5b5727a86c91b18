import Verif.Spec.Stack
import Verif.Spec.Copies
/-!
# Specification of stacks that share arrays

`b := *a` copies the field `elements` (`/repo/stack.go:5-7`), so that both stacks have one array. In this specification there are arrays, and every stack is the part of an array below its top.
-/
namespace Stl4go
variable {T : Type}

/-- A statement of a client. -/
inductive KStmt (T : Type) where
  | op (i : Nat) (o : KOp T)
  | cap (i : Nat)
  | copy (i j : Nat)      -- `*s_i = *s_j`

/-! ## The model -/

/-- One statement on the model; `VWorld` holds the `elements` fields. -/
def VWorld.stackStmt [GoZero T] (grow : Nat → Nat → Nat) (w : VWorld T) : KStmt T → DObs T × VWorld T
  | .op i o =>
    let r := Stk.exec grow { mem := w.mem, v := w.vars i } o
    (r.1, { mem := r.2.mem, vars := upd w.vars i r.2.v })
  | .cap i => ((VS.observe .num Stk.cap { mem := w.mem, v := w.vars i }).1, w)
  | .copy i j => (.unit, { w with vars := upd w.vars i (w.vars j) })

def VWorld.runStackC [GoZero T] (grow : Nat → Nat → Nat) : VWorld T → List (KStmt T) → List (DObs T) × VWorld T
  | w, [] => ([], w)
  | w, c :: h => ((w.stackStmt grow c).1 :: (VWorld.runStackC grow (w.stackStmt grow c).2 h).1, (VWorld.runStackC grow (w.stackStmt grow c).2 h).2)

/-! ## Arrays -/

/-- Arrays, numbered as they were made, and stacks: the number of an array and how many places of it are in use. -/
structure KShared (T : Type) where
  arr : Nat → List T
  next : Nat
  var : Nat → Nat × Nat

/-- Every stack is empty, on an array without places. -/
def KShared.init : KShared T := { arr := fun _ => [], next := 1, var := fun _ => (0, 0) }

/-- What stack `i` holds, top first. -/
def KShared.seq (a : KShared T) (i : Nat) : List T := ((a.arr (a.var i).1).take (a.var i).2).reverse

/-- Stack `i` uses `n` places of its array. -/
def KShared.cut (a : KShared T) (i n : Nat) : KShared T := { a with var := upd a.var i ((a.var i).1, n) }

/-- Stack `i` uses `n` places of a new array. -/
def KShared.add (a : KShared T) (i n : Nat) (l : List T) : KShared T :=
  { arr := upd a.arr a.next l, next := a.next + 1, var := upd a.var i (a.next, n) }

/-- `Push` within the capacity. -/
def KShared.room (a : KShared T) (i : Nat) : Prop := (a.var i).2 < (a.arr (a.var i).1).length

instance (a : KShared T) (i : Nat) : Decidable (a.room i) := inferInstanceAs (Decidable (_ < _))

/-- What an operation does: `Push` stores into the place above the top, in a new array if there is none; the others move the top. -/
def KShared.op [GoZero T] (grow : Nat → Nat → Nat) (a : KShared T) (i : Nat) : KOp T → KShared T
  | .new => { a with var := upd a.var i (0, 0) }
  | .newCap c => if 0 ≤ c then a.add i 0 (List.replicate c.toNat GoZero.zero) else a
  | .push x =>
    let n := (a.var i).2
    if a.room i then { a with arr := upd a.arr (a.var i).1 ((a.arr (a.var i).1).set n x), var := upd a.var i ((a.var i).1, n + 1) }
    else a.add i (n + 1) ((a.seq i).reverse ++ [x] ++ List.replicate (grow n (n + 1) - (n + 1)) GoZero.zero)
  | .pop => a.cut i ((a.var i).2 - 1)
  | .tryPop => a.cut i ((a.var i).2 - 1)
  | .clear => a.cut i 0
  | _ => a

/-- One statement: an operation shows what it shows for the elements the stack holds then. -/
def KShared.stmt [GoZero T] (grow : Nat → Nat → Nat) (a : KShared T) : KStmt T → DObs T × KShared T
  | .op i o => ((KSeq.step (a.seq i) o).1, a.op grow i o)
  | .cap i => (.num (a.arr (a.var i).1).length, a)
  | .copy i j => (.unit, { a with var := upd a.var i (a.var j) })

def KShared.run [GoZero T] (grow : Nat → Nat → Nat) : KShared T → List (KStmt T) → List (DObs T) × KShared T
  | a, [] => ([], a)
  | a, c :: h => ((a.stmt grow c).1 :: (KShared.run grow (a.stmt grow c).2 h).1, (KShared.run grow (a.stmt grow c).2 h).2)

/-! ## Stacks of their own -/

/-- One statement if a copy is a stack of its own. There are no capacities then. -/
def KSeq.stmt [GoZero T] (s : Nat → List T) : KStmt T → DObs T × (Nat → List T)
  | .op i o => ((KSeq.step (s i) o).1, upd s i (KSeq.step (s i) o).2)
  | .cap _ => (.unit, s)
  | .copy i j => (.unit, upd s i (s j))

def KSeq.runC [GoZero T] : (Nat → List T) → List (KStmt T) → List (DObs T) × (Nat → List T)
  | s, [] => ([], s)
  | s, c :: h => ((KSeq.stmt s c).1 :: (KSeq.runC (KSeq.stmt s c).2 h).1, (KSeq.runC (KSeq.stmt s c).2 h).2)

/-- The statement does not push onto a stack while another one that shares its array reaches higher, and there is room in the array; nor asks for a capacity. -/
def KShared.FairStmt (a : KShared T) : KStmt T → Prop
  | .op i (.push _) => a.room i → ∀ j, (a.var j).1 = (a.var i).1 → (a.var j).2 ≤ (a.var i).2
  | .cap _ => False
  | _ => True

/-- Every statement of a history is fair. -/
def KShared.Fair [GoZero T] (grow : Nat → Nat → Nat) : KShared T → List (KStmt T) → Prop
  | _, [] => True
  | a, c :: h => a.FairStmt c ∧ KShared.Fair grow (a.stmt grow c).2 h

end Stl4go
