import Verif.Spec.Order
/-! # Lemmas about strict weak orders -/
namespace Stl4go
variable {T : Type}

namespace StrictWeak
variable {less : T → T → Bool}

theorem asymm (h : StrictWeak less) {a b : T} (hab : less a b = true) : less b a = false := by
  cases hba : less b a with
  | false => rfl
  | true =>
    have := h.trans a b a hab hba
    rw [h.irrefl] at this; exact absurd this (by decide)

/-- Not-less is transitive. -/
theorem negTrans (h : StrictWeak less) {a b c : T} (hab : less a b = false) (hbc : less b c = false) :
    less a c = false := by
  cases hac : less a c with
  | false => rfl
  | true =>
    cases hba : less b a with
    | true =>
      have := h.trans b a c hba hac
      rw [hbc] at this; exact absurd this (by decide)
    | false =>
      cases hcb : less c b with
      | true =>
        have := h.trans a c b hac hcb
        rw [hab] at this; exact absurd this (by decide)
      | false =>
        have := h.incomp a b c hab hba hbc hcb
        rw [hac] at this; exact absurd this (by decide)

/-- The converse order is a strict weak order. -/
theorem flip (h : StrictWeak less) : StrictWeak (fun x y => less y x) where
  irrefl := h.irrefl
  trans := fun a b c hab hbc => h.trans c b a hbc hab
  incomp := fun a b c hab hba hbc hcb => h.incomp c b a hbc hcb hab hba

theorem lt_of_lt_of_not (h : StrictWeak less) {a b c : T} (hab : less a b = true) (hcb : less c b = false) :
    less a c = true := by
  cases hac : less a c with
  | true => rfl
  | false =>
    have := h.negTrans hac hcb
    rw [hab] at this; exact absurd this (by decide)

theorem lt_of_not_of_lt (h : StrictWeak less) {a b c : T} (hba : less b a = false) (hbc : less b c = true) :
    less a c = true := by
  cases hac : less a c with
  | true => rfl
  | false =>
    have := h.negTrans hba hac
    rw [hbc] at this; exact absurd this (by decide)
end StrictWeak

theorem strictWeak_of_linear {less : T → T → Bool} (f : T → Int)
    (hf : ∀ a b, less a b = decide (f a < f b)) : StrictWeak less where
  irrefl := fun a => by simp [hf]
  trans := fun a b c => by simp only [hf, decide_eq_true_eq]; omega
  incomp := fun a b c => by simp only [hf, decide_eq_false_iff_not]; omega

instance : LawfulGoOrd Int where
  weak := strictWeak_of_linear id (fun _ _ => rfl)
  eq_iff := fun a b => by simp only [GoEq.eq, GoOrd.lt, decide_eq_true_eq, decide_eq_false_iff_not]; omega

instance : LawfulGoOrd Nat where
  weak := strictWeak_of_linear (fun n => (n : Int)) (fun a b => by simp [GoOrd.lt])
  eq_iff := fun a b => by simp only [GoEq.eq, GoOrd.lt, decide_eq_true_eq, decide_eq_false_iff_not]; omega

instance : LawfulGoOrd String where
  weak := {
    irrefl := fun a => by simp [GoOrd.lt, String.lt_irrefl]
    trans := fun a b c => by simp only [GoOrd.lt, decide_eq_true_eq]; exact String.lt_trans
    incomp := fun a b c => by
      simp only [GoOrd.lt, decide_eq_false_iff_not, String.not_lt]
      intro h1 _ h3 _
      exact String.le_trans h3 h1 }
  eq_iff := fun a b => by
    simp only [GoEq.eq, GoOrd.lt, decide_eq_true_eq, decide_eq_false_iff_not, String.not_lt]
    constructor
    · rintro rfl; exact ⟨String.le_refl _, String.le_refl _⟩
    · rintro ⟨h1, h2⟩; exact String.le_antisymm h2 h1

/-- The `==` of a lawful ordered type is an equivalence. -/
instance [GoOrd T] [LawfulGoOrd T] : LawfulGoEq T where
  refl := fun a => (LawfulGoOrd.eq_iff a a).2 ⟨LawfulGoOrd.weak.irrefl a, LawfulGoOrd.weak.irrefl a⟩
  symm := fun a b h => by
    rw [LawfulGoOrd.eq_iff] at *; exact ⟨h.2, h.1⟩
  trans := fun a b c h1 h2 => by
    rw [LawfulGoOrd.eq_iff] at *
    exact ⟨LawfulGoOrd.weak.negTrans h1.1 h2.1, LawfulGoOrd.weak.negTrans h2.2 h1.2⟩

end Stl4go
