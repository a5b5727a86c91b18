import Verif.Model.Compute
import Verif.Model.Lookup
import Verif.Model.Compare
import Verif.Proofs.Order
/-! # Lemmas about counting, lookup and comparison functions -/
namespace Stl4go
variable {T : Type}

theorem countLoop_eq [GoEq T] (x : T) (a : List T) (c : Nat) :
    countLoop x a c = c + a.countP (fun v => GoEq.eq v x) := by
  induction a generalizing c with
  | nil => simp [countLoop]
  | cons v a ih =>
    by_cases h : GoEq.eq v x = true <;> simp [countLoop, h, ih] <;> omega

theorem count_eq [GoEq T] (a : List T) (x : T) : count a x = a.countP (fun v => GoEq.eq v x) := by
  simp [count, countLoop_eq]

theorem countIfLoop_eq (pred : T → Bool) (a : List T) (c : Nat) :
    countIfLoop pred a c = c + a.countP pred := by
  induction a generalizing c with
  | nil => simp [countIfLoop]
  | cons v a ih =>
    by_cases h : pred v = true <;> simp [countIfLoop, h, ih] <;> omega

/-- If exactly the indices in `[l,u)` satisfy `p` then `u-l` elements do. -/
theorem countP_of_window (p : T → Bool) (a : List T) (l u : Nat) (hlu : l ≤ u) (hu : u ≤ a.length)
    (h : ∀ i (hi : i < a.length), p a[i] = true ↔ (l ≤ i ∧ i < u)) : a.countP p = u - l := by
  induction a generalizing l u with
  | nil => simp at hu; simp; omega
  | cons x a ih =>
    have h0 := h 0 (by simp)
    simp only [List.getElem_cons_zero] at h0
    have hs : ∀ i (hi : i < a.length), p a[i] = true ↔ (l ≤ i + 1 ∧ i + 1 < u) := by
      intro i hi
      have := h (i + 1) (by simp; omega)
      simpa using this
    rw [List.countP_cons]
    by_cases hl : l = 0
    · subst hl
      by_cases hu0 : u = 0
      · subst hu0
        rw [ih 0 0 (by omega) (by omega) (by intro i hi; rw [hs]; omega)]
        have : ¬ (p x = true) := by rw [h0]; omega
        simp [this]
      · have hp : p x = true := by rw [h0]; omega
        rw [ih 0 (u - 1) (by omega) (by simp at hu; omega) (by intro i hi; rw [hs]; omega)]
        simp [hp]; omega
    · have : ¬ (p x = true) := by rw [h0]; omega
      rw [ih (l - 1) (u - 1) (by omega) (by simp at hu; omega) (by intro i hi; rw [hs]; omega)]
      simp [this]; omega

end Stl4go
