import Verif.Model.BinarySearch
import Verif.Proofs.Order
/-! # Proofs about the binary searches -/
namespace Stl4go
variable {T : Type}

/-- Proof device: the common shape of the four loops, going right when `p` holds. -/
def bsLoop (p : T → Bool) (a : List T) : (fuel loc count : Nat) → Outcome Nat
  | 0, _, _ => .diverge
  | fuel + 1, loc, count =>
    if count > 0 then do
      let x ← idx a (loc + count / 2)
      if p x then bsLoop p a fuel (loc + count / 2 + 1) (count - (count / 2 + 1))
      else bsLoop p a fuel loc (count / 2)
    else .ret loc

theorem lowerBoundFuncLoop_eq (a : List T) (v : T) (less : T → T → Bool) (f l c : Nat) :
    lowerBoundFuncLoop a v less f l c = bsLoop (fun x => less x v) a f l c := by
  induction f generalizing l c with
  | zero => rfl
  | succ f ih => simp only [lowerBoundFuncLoop, bsLoop, ih]

theorem upperBoundFuncLoop_eq (a : List T) (v : T) (less : T → T → Bool) (f l c : Nat) :
    upperBoundFuncLoop a v less f l c = bsLoop (fun x => !less v x) a f l c := by
  induction f generalizing l c with
  | zero => rfl
  | succ f ih => simp only [upperBoundFuncLoop, bsLoop, ih]

theorem lowerBoundLoop_eq [GoOrd T] (a : List T) (v : T) (f l c : Nat) :
    lowerBoundLoop a v f l c = lowerBoundFuncLoop a v GoOrd.lt f l c := by
  induction f generalizing l c with
  | zero => rfl
  | succ f ih => simp only [lowerBoundLoop, lowerBoundFuncLoop, ih]

theorem upperBoundLoop_eq [GoOrd T] (a : List T) (v : T) (f l c : Nat) :
    upperBoundLoop a v f l c = upperBoundFuncLoop a v GoOrd.lt f l c := by
  induction f generalizing l c with
  | zero => rfl
  | succ f ih => simp only [upperBoundLoop, upperBoundFuncLoop, ih]

theorem lowerBound_eq [GoOrd T] (a : List T) (v : T) : lowerBound a v = lowerBoundFunc a v GoOrd.lt :=
  lowerBoundLoop_eq _ _ _ _ _
theorem upperBound_eq [GoOrd T] (a : List T) (v : T) : upperBound a v = upperBoundFunc a v GoOrd.lt :=
  upperBoundLoop_eq _ _ _ _ _

/-- The loop returns, inside the window, for any predicate; if the predicate is downward closed on `a`,
the result is the partition point. -/
theorem bsLoop_spec (p : T → Bool) (a : List T) (f loc count : Nat) (hf : count < f)
    (hw : loc + count ≤ a.length) :
    ∃ r, bsLoop p a f loc count = .ret r ∧ loc ≤ r ∧ r ≤ loc + count ∧
      ((∀ i j (hi : i < a.length) (hj : j < a.length), i < j → p a[j] = true → p a[i] = true) →
       (∀ i (hi : i < a.length), i < loc → p a[i] = true) →
       (∀ i (hi : i < a.length), loc + count ≤ i → p a[i] = false) →
       (∀ i (hi : i < a.length), i < r → p a[i] = true) ∧ (∀ i (hi : i < a.length), r ≤ i → p a[i] = false)) := by
  induction f generalizing loc count with
  | zero => omega
  | succ f ih =>
    by_cases hc : count > 0
    · have hi : loc + count / 2 < a.length := by omega
      cases hp : p a[loc + count / 2] with
      | true =>
        obtain ⟨r, h1, h2, h3, h4⟩ := ih (loc + count / 2 + 1) (count - (count / 2 + 1)) (by omega) (by omega)
        refine ⟨r, ?_, by omega, by omega, ?_⟩
        · simp [bsLoop, hc, hi, hp, h1]
        · intro hmono hl hr
          apply h4 hmono
          · intro i hia hil
            by_cases h : i < loc + count / 2
            · exact hmono i _ hia hi h hp
            · have : i = loc + count / 2 := by omega
              subst this; exact hp
          · intro i hia hil; exact hr i hia (by omega)
      | false =>
        obtain ⟨r, h1, h2, h3, h4⟩ := ih loc (count / 2) (by omega) (by omega)
        refine ⟨r, ?_, by omega, by omega, ?_⟩
        · simp [bsLoop, hc, hi, hp, h1]
        · intro hmono hl hr
          apply h4 hmono hl
          intro i hia hil
          by_cases h : loc + count / 2 < i
          · cases hpi : p a[i] with
            | false => rfl
            | true => have := hmono _ i hi hia h hpi; rw [hp] at this; exact absurd this (by decide)
          · have : i = loc + count / 2 := by omega
            subst this; exact hp
    · have : count = 0 := by omega
      subst this
      exact ⟨loc, by simp [bsLoop], by omega, by omega, fun _ hl hr => ⟨hl, by simpa using hr⟩⟩

theorem bs_spec (p : T → Bool) (a : List T) :
    ∃ r, bsLoop p a (a.length + 1) 0 a.length = .ret r ∧ r ≤ a.length ∧
      ((∀ i j (hi : i < a.length) (hj : j < a.length), i < j → p a[j] = true → p a[i] = true) →
       (∀ i (hi : i < a.length), i < r → p a[i] = true) ∧ (∀ i (hi : i < a.length), r ≤ i → p a[i] = false)) := by
  obtain ⟨r, h1, _, h3, h4⟩ := bsLoop_spec p a (a.length + 1) 0 a.length (by omega) (by omega)
  refine ⟨r, h1, by omega, fun h => h4 h ?_ ?_⟩
  · intro i _ h; omega
  · intro i _ h; omega

theorem sorted_lower_mono {less : T → T → Bool} (hw : StrictWeak less) {a : List T} (hs : SortedBy less a) (v : T) :
    ∀ i j (hi : i < a.length) (hj : j < a.length), i < j → less a[j] v = true → less a[i] v = true := by
  intro i j hi hj hij h
  exact hw.lt_of_not_of_lt (hs i j hi hj hij) h

theorem sorted_upper_mono {less : T → T → Bool} (hw : StrictWeak less) {a : List T} (hs : SortedBy less a) (v : T) :
    ∀ i j (hi : i < a.length) (hj : j < a.length), i < j → (!less v a[j]) = true → (!less v a[i]) = true := by
  intro i j hi hj hij h
  simp only [Bool.not_eq_true'] at *
  exact hw.negTrans h (hs i j hi hj hij)

theorem lowerBoundFunc_spec {less : T → T → Bool} (a : List T) (v : T) :
    ∃ r, lowerBoundFunc a v less = .ret r ∧ r ≤ a.length ∧
      (StrictWeak less → SortedBy less a →
        (∀ i (hi : i < a.length), i < r → less a[i] v = true) ∧
        (∀ i (hi : i < a.length), r ≤ i → less a[i] v = false)) := by
  obtain ⟨r, h1, h2, h3⟩ := bs_spec (fun x => less x v) a
  exact ⟨r, by rw [lowerBoundFunc, lowerBoundFuncLoop_eq, h1], h2, fun hw hs => h3 (sorted_lower_mono hw hs v)⟩

theorem upperBoundFunc_spec {less : T → T → Bool} (a : List T) (v : T) :
    ∃ r, upperBoundFunc a v less = .ret r ∧ r ≤ a.length ∧
      (StrictWeak less → SortedBy less a →
        (∀ i (hi : i < a.length), i < r → less v a[i] = false) ∧
        (∀ i (hi : i < a.length), r ≤ i → less v a[i] = true)) := by
  obtain ⟨r, h1, h2, h3⟩ := bs_spec (fun x => !less v x) a
  refine ⟨r, by rw [upperBoundFunc, upperBoundFuncLoop_eq, h1], h2, fun hw hs => ?_⟩
  have := h3 (sorted_upper_mono hw hs v)
  simpa using this

end Stl4go
