import Verif.Model.BinarySearchCost
import Verif.Proofs.BinarySearch
namespace Stl4go
variable {T : Type}

theorem lowerBoundFuncLoopC_spec (a : List T) (v : T) (less : T → T → Bool) (f loc count n : Nat) (hf : count < f)
    (hw : loc + count ≤ a.length) :
    ∃ r m, lowerBoundFuncLoopC a v less f loc count n = .ret (r, m) ∧
      lowerBoundFuncLoop a v less f loc count = .ret r ∧
      n ≤ m ∧ m ≤ n + (if count = 0 then 0 else Nat.log2 count + 1) := by
  induction f generalizing loc count n with
  | zero => omega
  | succ f ih =>
    by_cases hc : count > 0
    · have hi : loc + count / 2 < a.length := by omega
      have hlog : (if count / 2 = 0 then 0 else Nat.log2 (count / 2) + 1) ≤ Nat.log2 count := by
        split
        · omega
        · rw [Nat.log2_def count, if_pos (by omega)]; omega
      cases hp : less a[loc + count / 2] v with
      | true =>
        obtain ⟨r, m, h1, h2, h3, h4⟩ := ih (loc + count / 2 + 1) (count - (count / 2 + 1)) (n + 1) (by omega) (by omega)
        refine ⟨r, m, by simp [lowerBoundFuncLoopC, hc, hi, hp, h1],
          by simp [lowerBoundFuncLoop, hc, hi, hp, h2], by omega, ?_⟩
        have : (if count - (count / 2 + 1) = 0 then 0 else Nat.log2 (count - (count / 2 + 1)) + 1)
            ≤ (if count / 2 = 0 then 0 else Nat.log2 (count / 2) + 1) := by
          split
          · omega
          · rename_i hne
            rw [if_neg (by omega)]
            have : Nat.log2 (count - (count / 2 + 1)) ≤ Nat.log2 (count / 2) := by
              rw [Nat.le_log2 (by omega)]
              exact Nat.le_trans (Nat.log2_self_le hne) (by omega)
            omega
        rw [if_neg (by omega)]; omega
      | false =>
        obtain ⟨r, m, h1, h2, h3, h4⟩ := ih loc (count / 2) (n + 1) (by omega) (by omega)
        refine ⟨r, m, by simp [lowerBoundFuncLoopC, hc, hi, hp, h1],
          by simp [lowerBoundFuncLoop, hc, hi, hp, h2], by omega, ?_⟩
        rw [if_neg (by omega : ¬ count = 0)]; omega
    · exact ⟨loc, n, by simp [lowerBoundFuncLoopC, hc], by simp [lowerBoundFuncLoop, hc], by omega, by omega⟩

theorem upperBoundFuncLoopC_eq (a : List T) (v : T) (less : T → T → Bool) (f l c n : Nat) :
    upperBoundFuncLoopC a v less f l c n = lowerBoundFuncLoopC a v (fun x y => !less y x) f l c n := by
  induction f generalizing l c n with
  | zero => rfl
  | succ f ih => simp only [upperBoundFuncLoopC, lowerBoundFuncLoopC, ih]

theorem upperBoundFuncLoop_eq' (a : List T) (v : T) (less : T → T → Bool) (f l c : Nat) :
    upperBoundFuncLoop a v less f l c = lowerBoundFuncLoop a v (fun x y => !less y x) f l c := by
  rw [upperBoundFuncLoop_eq, lowerBoundFuncLoop_eq]

end Stl4go
