import Verif.Model.Basic
/-!
# Specification of a priority queue as a multiset with extract-min

Nothing here refers to heaps. A multiset is a list up to permutation.
-/
namespace Stl4go
variable {T : Type}

/-- Operations of a client. -/
inductive PQOp (T : Type) where
  | push (v : T)
  | pop
  | top
  | clear
  | len
  | isEmpty

/-- What the client observes. -/
inductive PQObs (T : Type) where
  | unit
  | val (v : T)
  | num (n : Nat)
  | flag (b : Bool)
  | panicked
  | hung
deriving DecidableEq

/-- One operation on the multiset `m`: allowed observation and multiset afterwards. -/
inductive PQStep (less : T → T → Bool) : List T → PQOp T → PQObs T → List T → Prop where
  | push (m v m') : m'.Perm (v :: m) → PQStep less m (.push v) .unit m'
  | pop (m r m') : m.Perm (r :: m') → (∀ y ∈ m, less y r = false) → PQStep less m .pop (.val r) m'
  | popEmpty : PQStep less [] .pop .panicked []
  | top (m r) : r ∈ m → (∀ y ∈ m, less y r = false) → PQStep less m .top (.val r) m
  | topEmpty : PQStep less [] .top .panicked []
  | clear (m) : PQStep less m .clear .unit []
  | len (m) : PQStep less m .len (.num m.length) m
  | isEmpty (m) : PQStep less m .isEmpty (.flag (decide (m = []))) m

/-- A history of operations with its observations. -/
inductive PQRun (less : T → T → Bool) : List T → List (PQOp T) → List (PQObs T) → List T → Prop where
  | nil (m) : PQRun less m [] [] m
  | cons (m op ob m' ops obs m'') : PQStep less m op ob m' → PQRun less m' ops obs m'' →
      PQRun less m (op :: ops) (ob :: obs) m''

end Stl4go
