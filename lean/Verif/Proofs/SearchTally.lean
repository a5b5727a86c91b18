import Verif.Model.Callback
import Verif.Model.BinarySearchCost
import Verif.Proofs.HeapMemApi
/-!
# The counter of `Model/BinarySearchCost.lean` counts the calls of the comparison function
-/
namespace Stl4go
variable {T ρ α : Type}

/-- A comparison function without other effects that counts its calls. -/
def tallyE (l : T → T → Bool) : T → T → GoM (CS T Nat) Bool := fun x y s => .ok (l x y) { s with st := s.st + 1 }

theorem tallyE_call (l : T → T → Bool) (x y : T) (f : Bool → GoM (CS T Nat) α) (m : Mem T) (t : Nat) :
    (tallyE l x y >>= f) ⟨m, t⟩ = f (l x y) ⟨m, t + 1⟩ := rfl

theorem getE_at (a : Sl) (s : CS T ρ) (i : Nat) {x : T} (e : idx (a.read s.mem) i = .ret x) : CS.on (ρ := ρ) (a.get (i : Int)) s = .ok x s := by
  obtain ⟨hi, rfl⟩ := idx_ret e
  have hi' : i < a.len := by simpa using hi
  simp [CS.on, Sl.get, hi', Sl.read_getElem]

theorem lowerBoundFuncLoopE_tally (l : T → T → Bool) (a : Sl) (v : T) (m : Mem T) (t f : Nat) : ∀ loc count n r n',
    lowerBoundFuncLoopC (a.read m) v l f loc count n = .ret (r, n') →
    lowerBoundFuncLoopE a v (tallyE l) f loc count ⟨m, t + n⟩ = .ok r ⟨m, t + n'⟩ := by
  induction f with
  | zero => intro loc count n r n' e; cases e
  | succ f ih =>
    intro loc count n r n' e
    simp only [lowerBoundFuncLoopC] at e
    simp only [lowerBoundFuncLoopE]
    by_cases hc : count > 0
    · rw [if_pos hc] at e ⊢
      obtain ⟨x, hx, e⟩ := Outcome.bind_ret e
      rw [GoM.bind_ok (getE_at a _ _ hx), tallyE_call]
      cases hb : l x v with
      | true => rw [hb] at e; exact ih _ _ _ _ _ e
      | false => rw [hb] at e; exact ih _ _ _ _ _ e
    · rw [if_neg hc] at e ⊢
      cases e
      rfl

theorem upperBoundFuncLoopE_tally (l : T → T → Bool) (a : Sl) (v : T) (m : Mem T) (t f : Nat) : ∀ loc count n r n',
    upperBoundFuncLoopC (a.read m) v l f loc count n = .ret (r, n') →
    upperBoundFuncLoopE a v (tallyE l) f loc count ⟨m, t + n⟩ = .ok r ⟨m, t + n'⟩ := by
  induction f with
  | zero => intro loc count n r n' e; cases e
  | succ f ih =>
    intro loc count n r n' e
    simp only [upperBoundFuncLoopC] at e
    simp only [upperBoundFuncLoopE]
    by_cases hc : count > 0
    · rw [if_pos hc] at e ⊢
      obtain ⟨x, hx, e⟩ := Outcome.bind_ret e
      rw [GoM.bind_ok (getE_at a _ _ hx), tallyE_call]
      cases hb : l v x with
      | true => rw [hb] at e; exact ih _ _ _ _ _ e
      | false => rw [hb] at e; exact ih _ _ _ _ _ e
    · rw [if_neg hc] at e ⊢
      cases e
      rfl

end Stl4go
