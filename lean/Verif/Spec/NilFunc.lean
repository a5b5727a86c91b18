import Verif.Model.NilFunc
import Verif.Spec.SkipListM
import Verif.Spec.HeapMem
/-! # What a client sees of functions and containers that were given a nil function -/
namespace Stl4go
variable {σ α K V T : Type}

/-- With up to `n` elements the call returns `x`, with more it panics; nothing is changed in either case. -/
def UpTo (n len : Nat) (s : σ) (x : α) (r : Res σ α) : Prop := (len ≤ n → r = .ok x s) ∧ (n < len → r = .panic s)

/-! ## `NewSkipListFunc(nil)` -/

/-- A map without a way to compare keys: it has room for one entry, and then every method that is given a key panics. -/
def slotStep : Option (K × V) → SMOp K V → SMObs K V × Option (K × V)
  | _, .clear => (.unit, none)
  | s, .len => (.num s.toList.length, s)
  | s, .isEmpty => (.flag s.isNone, s)
  | s, .iterate => (.entries s.toList, s)
  | none, .insert k v => (.unit, some (k, v))
  | none, .remove _ => (.flag false, none)
  | none, .update _ _ => (.flag false, none)
  | none, .find _ => (.val none, none)
  | none, .has _ => (.flag false, none)
  | none, .lowerBound _ => (.entries [], none)
  | none, .upperBound _ => (.entries [], none)
  | some e, _ => (.panicked, some e)

/-- A history on such a map. -/
def slotRun : Option (K × V) → List (SMOp K V) → List (SMObs K V) × Option (K × V)
  | s, [] => ([], s)
  | s, op :: ops =>
    let r := slotStep s op
    let rest := slotRun r.2 ops
    (r.1 :: rest.1, rest.2)

/-! ## `NewPriorityQueueFunc(nil)` -/

/-- A queue without a way to compare elements: only the first element can be pushed without a panic, but the others are added too. An element can be taken from one or two; from more
than two `Pop` panics and exchanges the first and the last. -/
def blindStep : List T → PQOp T → PQObs T × List T
  | [], .push v => (.unit, [v])
  | l, .push v => (.panicked, l ++ [v])
  | [], .pop => (.panicked, [])
  | [x], .pop => (.val x, [])
  | [x, y], .pop => (.val x, [y])
  | x :: y :: z :: l, .pop => (.panicked, (z :: l).getLast (by simp) :: y :: (z :: l).dropLast ++ [x])
  | [], .top => (.panicked, [])
  | x :: l, .top => (.val x, x :: l)
  | _, .clear => (.unit, [])
  | l, .len => (.num l.length, l)
  | l, .isEmpty => (.flag l.isEmpty, l)

/-- A history on such a queue. -/
def blindRun : List T → List (PQOp T) → List (PQObs T) × List T
  | l, [] => ([], l)
  | l, op :: ops =>
    let r := blindStep l op
    let rest := blindRun r.2 ops
    (r.1 :: rest.1, rest.2)

end Stl4go
