import Verif.Spec.Heap
import Verif.Spec.Looks
import Verif.Spec.SortBound
/-! # Specification: what can be found out with how many comparisons -/
namespace Stl4go
variable {T α : Type}

/-- Any way to find something out about a list by comparisons: ask whether the element at one position is less than that at another, as often as needed, and then give an answer. -/
inductive AskProg (α : Type) where
  | ret (a : α)
  | ask (i j : Nat) (k : Bool → AskProg α)

/-- The answer, and the pairs of positions that were compared; `none` if a position is outside. -/
def AskProg.run (l : T → T → Bool) (xs : List T) : AskProg α → Option (α × List (Nat × Nat))
  | .ret a => some (a, [])
  | .ask i j k =>
    match xs[i]?, xs[j]? with
    | some x, some y => ((k (l x y)).run l xs).map fun q => (q.1, (i, j) :: q.2)
    | _, _ => none

/-- `<` of integers. -/
def intLess (x y : Int) : Bool := decide (x < y)

/-- The program finds the least of any `n` different integers (its position). -/
def AskProg.FindsLeast (p : AskProg Nat) (n : Nat) : Prop :=
  ∀ xs : List Int, xs.length = n → xs.Nodup → ∃ r E x, p.run intLess xs = some (r, E) ∧ xs[r]? = some x ∧ ∀ y ∈ xs, x ≤ y

/-- The program finds the greatest of any `n` different integers (its position). -/
def AskProg.FindsGreatest (p : AskProg Nat) (n : Nat) : Prop :=
  ∀ xs : List Int, xs.length = n → xs.Nodup → ∃ r E x, p.run intLess xs = some (r, E) ∧ xs[r]? = some x ∧ ∀ y ∈ xs, y ≤ x

/-- The program tells of any `n` different integers whether they are in ascending order. -/
def AskProg.TestsSorted (p : AskProg Bool) (n : Nat) : Prop :=
  ∀ xs : List Int, xs.length = n → xs.Nodup → ∃ b E, p.run intLess xs = some (b, E) ∧ (b = true ↔ xs.Pairwise (· < ·))

/-- The program tells of any `n` different integers whether they are a heap. -/
def AskProg.TestsHeap (p : AskProg Bool) (n : Nat) : Prop :=
  ∀ xs : List Int, xs.length = n → xs.Nodup → ∃ b E, p.run intLess xs = some (b, E) ∧ (b = true ↔ IsHeap intLess xs)

/-- A way to find the least and the greatest: take the elements from position `k` on in pairs, compare the two first, then the lesser with the least so far and the greater with the greatest. -/
def minMaxFrom : (rem k lo hi : Nat) → AskProg (Nat × Nat)
  | 0, _, lo, hi => .ret (lo, hi)
  | 1, k, lo, hi => .ask k lo fun b => .ask hi k fun c => .ret (if b then k else lo, if c then k else hi)
  | rem + 2, k, lo, hi => .ask (k + 1) k fun b =>
    .ask (if b then k + 1 else k) lo fun c => .ask hi (if b then k else k + 1) fun d =>
      minMaxFrom rem (k + 2) (if c then (if b then k + 1 else k) else lo) (if d then (if b then k else k + 1) else hi)

/-- A way to find the least, or the greatest: compare each element with the best so far. -/
def bestFrom (least : Bool) : (rem k best : Nat) → AskProg Nat
  | 0, _, best => .ret best
  | rem + 1, k, best => .ask (if least then k else best) (if least then best else k) fun b => bestFrom least rem (k + 1) (if b then k else best)

/-- A way to test the order: compare each element with the one before it. -/
def sortedFrom : (rem k : Nat) → AskProg Bool
  | 0, _ => .ret true
  | rem + 1, k => .ask k (k + 1) fun b => if b then sortedFrom rem (k + 1) else .ret false

/-- A way to test for a heap: compare each element with its parent. -/
def heapFrom : (rem c : Nat) → AskProg Bool
  | 0, _ => .ret true
  | rem + 1, c => .ask c ((c - 1) / 2) fun b => if b then .ret false else heapFrom rem (c + 1)

/-- How many comparisons a record shows. -/
def comparisons (t : List (Look T)) : Nat := (t.filter fun e => !e.isRead).length

end Stl4go
