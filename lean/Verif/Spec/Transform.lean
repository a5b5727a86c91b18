import Verif.Model.Slice
/-! # Specification of the functions of `transform.go`: what they compute, on lists; what they may touch, on memory -/
namespace Stl4go
variable {T R σ : Type}

/-- Nothing was allocated and no cell outside the slice changed. -/
def OnlyIn (m m' : Mem T) (a : Sl) : Prop :=
  m'.top = m.top ∧ ∀ k, (k < a.off ∨ a.off + a.len ≤ k) → m'.cell k = m.cell k

/-- A call that gave `r` wrote none of the memory there was before, and `r` has no cell of it. -/
structure Fresh (m m' : Mem T) (r : Sl) : Prop where
  wf : r.WF m'
  top : m.top ≤ m'.top
  keep : ∀ k, k < m.top → m'.cell k = m.cell k
  new : m.top ≤ r.off ∨ r.cap = 0

/-- A call that was given the slice `b` to put its result into gave `r` holding `xs`: at the start of `b`'s array if `xs` fits into `b`'s
capacity, else in memory that was not allocated before; cells outside `b`'s array kept their values. -/
structure Into (m : Mem T) (b : Sl) (m' : Mem T) (r : Sl) (xs : List T) : Prop where
  read : r.read m' = xs
  wf : r.WF m'
  top : m.top ≤ m'.top
  fits : xs.length ≤ b.cap → r = { b with len := xs.length } ∧ m'.top = m.top
  moves : b.cap < xs.length → m.top ≤ r.off
  frame : ∀ k, k < m.top → (k < b.off ∨ b.off + b.cap ≤ k) → m'.cell k = m.cell k

/-- A callback with a state, applied to the elements in order. -/
def mapS (f : σ → T → σ × R) : σ → List T → σ × List R
  | t, [] => (t, [])
  | t, x :: s => ((mapS f (f t x).1 s).1, (f t x).2 :: (mapS f (f t x).1 s).2)

/-- A predicate with a state, asked once for each element in order: the elements for which it said false. -/
def rejectS (f : σ → T → σ × Bool) : σ → List T → σ × List T
  | t, [] => (t, [])
  | t, x :: s => if (f t x).2 then rejectS f (f t x).1 s else ((rejectS f (f t x).1 s).1, x :: (rejectS f (f t x).1 s).2)

/-- The elements that differ from the one just before them. -/
def starts [GoEq T] : T → List T → List T
  | _, [] => []
  | p, x :: s => if GoEq.eq p x then starts x s else x :: starts x s

/-- Each run of equal neighbours replaced by its first element. -/
def collapse [GoEq T] : List T → List T
  | [] => []
  | x :: s => x :: starts x s

/-- `==` of Go: symmetric and transitive, but a NaN is not equal to itself. -/
structure PartialEq (T : Type) [GoEq T] : Prop where
  symm : ∀ a b : T, GoEq.eq a b = true → GoEq.eq b a = true
  trans : ∀ a b c : T, GoEq.eq a b = true → GoEq.eq b c = true → GoEq.eq a c = true

/-- `n` elements of a pattern repeated for ever. -/
def cycle (p : List T) (n : Nat) (h : p ≠ []) : List T :=
  (List.range n).map (fun i => p[i % p.length]'(Nat.mod_lt _ (List.length_pos_iff.mpr h)))

end Stl4go
