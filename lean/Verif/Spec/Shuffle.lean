/-!
# Specification: drawing for a shuffle

`rand.Shuffle(n, swap)` of the standard library (`/repo/transform.go:212`) calls `swap(i, j)` for `i = n-1, …, 1` with a `j` drawn from `0, …, i`.
-/
namespace Stl4go

/-- The numbers that may be drawn for `n` elements: first one below `n`, then one below `n - 1`, and so on, the last one below 2. -/
def FYDraws : Nat → List Nat → Prop
  | 0, [] => True
  | 1, [] => True
  | n + 2, j :: js => j < n + 2 ∧ FYDraws (n + 1) js
  | _, _ => False

/-- The calls of `swap` that belong to the numbers drawn. -/
def fyPairs : Nat → List Nat → List (Nat × Nat)
  | _, [] => []
  | n, j :: js => (n - 1, j) :: fyPairs (n - 1) js

/-- All that may be drawn for `n` elements. -/
def allDraws : Nat → List (List Nat)
  | 0 => [[]]
  | 1 => [[]]
  | n + 2 => (List.range (n + 2)).flatMap (fun j => (allDraws (n + 1)).map (j :: ·))

/-- `n!` -/
def fac : Nat → Nat
  | 0 => 1
  | n + 1 => (n + 1) * fac n

end Stl4go
