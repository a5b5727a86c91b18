import Verif.Model.Basic
/-!
# Which nodes an operation has to do with

For states that consist of a heap of nodes `h s` and something else `r s`, such as a list's struct. `Touches` says it without counting steps: outside a few nodes, the operation neither
notices what is there nor changes it.
-/
namespace Stl4go
variable {σ N R α : Type}

/-- The states `s` and `s'` differ at most in the contents of the first `n` nodes other than those of `L`. -/
def Alike (h : σ → List N) (r : σ → R) (L : List Nat) (n : Nat) (s s' : σ) : Prop :=
  r s' = r s ∧ (h s').length = (h s).length ∧ ∀ p, p ∈ L ∨ n ≤ p → (h s')[p]? = (h s)[p]?

/-- The first `n` nodes other than those of `L` are the same in `s` and in `t`. -/
def Spared (h : σ → List N) (L : List Nat) (n : Nat) (s t : σ) : Prop := ∀ p, p ∉ L → p < n → (h t)[p]? = (h s)[p]?

/-- Two executions, from `s` and from `s'`, that return the same value or both panic, treat the nodes of `L` and the new ones in the same way, leave the others alone and make at most
`k` new nodes. -/
def Together (h : σ → List N) (r : σ → R) (L : List Nat) (n k : Nat) (s s' : σ) : Res σ α → Res σ α → Prop
  | .ok a t, .ok a' t' => a' = a ∧ Alike h r L n t t' ∧ Spared h L n s t ∧ Spared h L n s' t' ∧ (h t).length ≤ (h s).length + k
  | .panic t, .panic t' => Alike h r L n t t' ∧ Spared h L n s t ∧ Spared h L n s' t' ∧ (h t).length ≤ (h s).length + k
  | .diverge, .diverge => True
  | _, _ => False

/-- Of the nodes that exist in `s`, `x` reads and writes no others than those of `L`; it makes at most `k` new ones. -/
def Touches (h : σ → List N) (r : σ → R) (L : List Nat) (k : Nat) (x : GoM σ α) (s : σ) : Prop :=
  ∀ s', Alike h r L (h s).length s s' → Together h r L (h s).length k s s' (x s) (x s')

end Stl4go
