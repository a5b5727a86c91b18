import Verif.Spec.Callback
/-!
# Specification vocabulary for binary search with a comparison that is Go code

`Asked q s tr s'`: the questions of `tr`, asked one after the other starting in state `s`, got the answers of `tr` and led to state `s'`.
`Bisects lo hi tr p` and `Narrows lo hi js` do not mention the search: they say what answers pin down the position `p`.
-/
namespace Stl4go
variable {T σ α ρ : Type}

/-- The questions `tr` were asked one after the other, with these answers. -/
inductive Asked (q : Nat → GoM σ Bool) : σ → List (Nat × Bool) → σ → Prop
  | none (s : σ) : Asked q s [] s
  | next {s s1 s2 : σ} {j : Nat} {b : Bool} {tr : List (Nat × Bool)} : q j s = .ok b s1 → Asked q s1 tr s2 → Asked q s ((j, b) :: tr) s2

/-- The questions `js` about positions from `lo` to `hi` are distinct, and there are not more than the binary digits of `hi - lo`. -/
def Narrows (lo hi : Nat) (js : List Nat) : Prop :=
  js.Nodup ∧ (∀ j ∈ js, lo ≤ j ∧ j < hi) ∧ js.length ≤ if hi - lo = 0 then 0 else Nat.log2 (hi - lo) + 1

/-- `p` is a position from `lo` to `hi` that agrees with all answers (true: before `p`), and its two sides were asked about. -/
def Bisects (lo hi : Nat) (tr : List (Nat × Bool)) (p : Nat) : Prop :=
  lo ≤ p ∧ p ≤ hi ∧ (∀ e ∈ tr, e.2 = true ↔ e.1 < p) ∧ (lo < p → (p - 1, true) ∈ tr) ∧ (p < hi → (p, false) ∈ tr)

/-- A search over the positions from `lo` to `hi` that asks `q`: it returns a position that the answers pin down, or the call that
panicked or hung is one of `q`. -/
def SearchOk (q : Nat → GoM σ Bool) (lo hi : Nat) (s : σ) : Res σ Nat → Prop
  | .ok p s' => ∃ tr, Asked q s tr s' ∧ Narrows lo hi (tr.map (·.1)) ∧ Bisects lo hi tr p
  | .panic s' => ∃ tr s1 j, Asked q s tr s1 ∧ q j s1 = .panic s' ∧ Narrows lo hi (tr.map (·.1) ++ [j])
  | .diverge => ∃ tr s1 j, Asked q s tr s1 ∧ q j s1 = .diverge ∧ Narrows lo hi (tr.map (·.1) ++ [j])

/-- A call of `f` with the element that is at index `j` of `a` now. -/
def withElem (a : Sl) (f : T → GoM (CS T ρ) α) (j : Nat) : GoM (CS T ρ) α := fun s => f (s.mem.cell (a.off + j)) s

end Stl4go
