/-!
# Specification: the swaps that reverse a slice
-/
namespace Stl4go

/-- The pairs of positions that are exchanged to reverse `n` elements: first and last, second and last but one, and so on
(`/repo/transform.go:221-223`). -/
def mirrorPairs (n : Nat) : List (Nat × Nat) := (List.range (n / 2)).map (fun i => (i, n - 1 - i))

end Stl4go
