import Verif.Model.PQCopy
/-! # Specification of copies of priority queues -/
namespace Stl4go
variable {T : Type}

/-! ## Copies as queues of their own -/

/-- The orders a history gives to `NewPriorityQueueFunc` are strict weak orders. -/
def PQCOp.Orders (h : List (Nat × PQCOp T)) : Prop := ∀ i less, (i, PQCOp.base (.newFunc less)) ∈ h → StrictWeak less

/-- A history in which a copy is a queue of its own with the elements of the copied one. -/
inductive PQOwnRun [GoOrd T] : (Nat → PQSpec T) → List (Nat × PQCOp T) → List (PQObs T) → Prop where
  | nil (s) : PQOwnRun s [] []
  | base (s i o ob q ops obs) : PQWStep (s i) o ob q → PQOwnRun (fun j => if j = i then q else s j) ops obs →
      PQOwnRun s ((i, .base o) :: ops) (ob :: obs)
  | copy (s i j ops obs) : PQOwnRun (fun l => if l = i then s j else s l) ops obs → PQOwnRun s ((i, .copy j) :: ops) (.unit :: obs)

/-! ## What copies are -/

/-- An object: a queue made by a constructor, or a copy of one. A queue has an order, its elements and the unused slots of its array in the order of the
array, and for each array that it has left the element that was first then. A copy is a length, and the number of the array that the queue had when it was copied. -/
inductive PQView (T : Type) where
  | queue (less : T → T → Bool) (q e : List T) (past : List (Option T))
  | copy (of array n : Nat)
  | absent

/-- The objects in the order they were made, and the client's variables. -/
structure PQCSpec (T : Type) where
  view : Nat → PQView T
  next : Nat
  var : Nat → Option Nat

/-- Every variable points to a zero `PriorityQueue`. -/
def PQCSpec.init : PQCSpec T := { view := fun _ => .absent, next := 0, var := fun _ => none }

/-- Object `x` becomes `v`. -/
def PQCSpec.set (s : PQCSpec T) (x : Nat) (v : PQView T) : PQCSpec T := { s with view := fun y => if y = x then v else s.view y }

/-- Variable `i` points to a new object `v`. -/
def PQCSpec.add (s : PQCSpec T) (i : Nat) (v : PQView T) : PQCSpec T :=
  { view := fun y => if y = s.next then v else s.view y, next := s.next + 1, var := fun j => if j = i then some s.next else s.var j }

/-- The first element of the list comes before no other. -/
def MinFirst (less : T → T → Bool) (q : List T) : Prop := ∀ r, q.head? = some r → ∀ y ∈ q, less y r = false

/-- The first slot of array number `a`, of a queue that has the slots `slots` now. -/
def firstSlot (slots : List T) (past : List (Option T)) (a : Nat) : Option T := if a < past.length then past[a]?.join else slots.head?

/-- The arrays left after an operation: `Push` leaves an array without unused slots. -/
def PQOp.pastAfter (q e : List T) (past : List (Option T)) : PQOp T → List (Option T)
  | .push _ => if e = [] then past ++ [q.head?] else past
  | _ => past

/-- A constructor: what the new queue holds. -/
inductive PQMade [GoOrd T] : PQWOp T → (T → T → Bool) → List T → Prop where
  | new : PQMade .new GoOrd.lt []
  | newFunc (less) : PQMade (.newFunc less) less []
  | newOf (xs q) : q.Perm xs → MinFirst GoOrd.lt q → PQMade (.newOf xs) GoOrd.lt q

/-- One operation. `Push` and `Pop` through a copy act on the queue that was copied; the other methods of a copy know its own length, and `Top` reads
the array that it was copied with. -/
inductive PQCStep [GoZero T] [GoOrd T] (grow : Nat → Nat → Nat) (s : PQCSpec T) : Nat → PQCOp T → PQObs T → PQCSpec T → Prop where
  | zero (i o ob) : s.var i = none → PQWStep .zero (.op o) ob .zero → PQCStep grow s i (.base (.op o)) ob s
  | make (i o l q) : PQMade o l q → PQCStep grow s i (.base o) .unit (s.add i (.queue l q [] []))
  | queue (i x o ob l q e past q') : s.var i = some x → s.view x = .queue l q e past → PQStep l q o ob q' → MinFirst l q' →
      PQCStep grow s i (.base (.op o)) ob (s.set x (.queue l q' ((PQWOp.op o).leaves grow (.made l q) e ob) (o.pastAfter q e past)))
  | push (i x k a n v l q e past q') : s.var i = some x → s.view x = .copy k a n → s.view k = .queue l q e past → PQStep l q (.push v) .unit q' →
      MinFirst l q' →
      PQCStep grow s i (.base (.op (.push v))) .unit
        (s.set k (.queue l q' ((PQWOp.op (.push v)).leaves grow (.made l q) e .unit) ((PQOp.push v).pastAfter q e past)))
  | pop (i x k a n ob l q e past q') : s.var i = some x → s.view x = .copy k a n → s.view k = .queue l q e past → PQStep l q .pop ob q' →
      MinFirst l q' → PQCStep grow s i (.base (.op .pop)) ob (s.set k (.queue l q' ((PQWOp.op .pop).leaves grow (.made l q) e ob) past))
  | len (i x k a n) : s.var i = some x → s.view x = .copy k a n → PQCStep grow s i (.base (.op .len)) (.num n) s
  | isEmpty (i x k a n) : s.var i = some x → s.view x = .copy k a n → PQCStep grow s i (.base (.op .isEmpty)) (.flag (decide (n = 0))) s
  | clear (i x k a n) : s.var i = some x → s.view x = .copy k a n → PQCStep grow s i (.base (.op .clear)) .unit (s.set x (.copy k a 0))
  | topEmpty (i x k a) : s.var i = some x → s.view x = .copy k a 0 → PQCStep grow s i (.base (.op .top)) .panicked s
  | top (i x k a n l q e past r) : s.var i = some x → s.view x = .copy k a (n + 1) → s.view k = .queue l q e past →
      firstSlot (q ++ e) past a = some r → PQCStep grow s i (.base (.op .top)) (.val r) s
  | copyZero (i j) : s.var j = none → PQCStep grow s i (.copy j) .unit { s with var := fun m => if m = i then none else s.var m }
  | copyQueue (i j x l q e past) : s.var j = some x → s.view x = .queue l q e past →
      PQCStep grow s i (.copy j) .unit (s.add i (.copy x past.length q.length))
  | copyCopy (i j x k a n) : s.var j = some x → s.view x = .copy k a n → PQCStep grow s i (.copy j) .unit (s.add i (.copy k a n))

/-- A history. -/
inductive PQCRun [GoZero T] [GoOrd T] (grow : Nat → Nat → Nat) : PQCSpec T → List (Nat × PQCOp T) → List (PQObs T) → PQCSpec T → Prop where
  | nil (s) : PQCRun grow s [] [] s
  | cons (s i op ob s1 ops obs s2) : PQCStep grow s i op ob s1 → PQCRun grow s1 ops obs s2 → PQCRun grow s ((i, op) :: ops) (ob :: obs) s2

/-! ## Histories in which copies are used as snapshots -/

/-- What a variable points to: a zero queue, queue number `x`, or a copy of it; `fresh`: nothing was pushed or popped since it was copied, or it was cleared. -/
inductive PQTrack where
  | zero
  | queue (x : Nat)
  | copy (x : Nat) (fresh : Bool)
deriving DecidableEq

/-- Queue `x` changed. -/
def PQTrack.stale (x : Nat) : PQTrack → PQTrack
  | .copy y f => .copy y (f && !decide (x = y))
  | t => t

/-- The variables after an operation, with `n` queues and copies made so far. -/
def PQCOp.track (n : Nat) (v : Nat → PQTrack) (i : Nat) : PQCOp T → Nat × (Nat → PQTrack)
  | .base (.op (.push _)) => (n, match v i with | .queue x => fun j => (v j).stale x | _ => v)
  | .base (.op .pop) => (n, match v i with | .queue x => fun j => (v j).stale x | _ => v)
  | .base (.op .clear) => (n, match v i with | .copy x _ => fun j => if j = i then .copy x true else v j | _ => v)
  | .base (.op _) => (n, v)
  | .base _ => (n + 1, fun j => if j = i then .queue n else v j)
  | .copy k => (if v k = .zero then n else n + 1, fun j => if j = i then (match v k with | .queue x => .copy x true | t => t) else v j)

/-- The operation does not push to, pop from, or read the top of a copy of a queue that changed since. -/
def PQCOp.Fair (v : PQTrack) : PQCOp T → Prop
  | .base (.op (.push _)) => ∀ x f, v ≠ .copy x f
  | .base (.op .pop) => ∀ x f, v ≠ .copy x f
  | .base (.op .top) => ∀ x, v ≠ .copy x false
  | _ => True

/-- A history in which copies are only used as snapshots. -/
def PQCOp.Snapshots (n : Nat) (v : Nat → PQTrack) : List (Nat × PQCOp T) → Prop
  | [] => True
  | (i, op) :: ops => op.Fair (v i) ∧ Snapshots (op.track n v i).1 (op.track n v i).2 ops

end Stl4go
