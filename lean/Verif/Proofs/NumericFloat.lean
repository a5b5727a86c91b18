import Verif.Proofs.Numeric
/-! # Lemmas about float operations on integers and near them -/
namespace Stl4go

theorem Flt.one_pos : (0 : Int) < (Flt.one : Int) := by
  have : 0 < Flt.one := Nat.two_pow_pos _
  omega

/-- The rounding of an exact result of `z` units. -/
def GoFloat.rnd (g : GoFloat) (z : Int) : Int :=
  if z < 0 then - (roundFrac g.prec g.sub z.natAbs 1 : Int) else roundFrac g.prec g.sub z.natAbs 1

theorem GoFloat.ofUnits_eq (g : GoFloat) (z : Int) (h : roundFrac g.prec g.sub z.natAbs 1 < g.limit) : g.ofUnits z = .fin (g.rnd z) := by
  unfold GoFloat.ofUnits GoFloat.round GoFloat.rnd
  rw [if_pos h]
  by_cases hz : z < 0 <;> simp [hz]

theorem GoFloat.prec_pos (g : GoFloat) : 1 ≤ g.prec := by cases g <;> decide
theorem GoFloat.sub_le (g : GoFloat) : g.sub ≤ Flt.exp := by cases g <;> decide

theorem GoFloat.rnd_mono (g : GoFloat) {a b : Int} (h : a ≤ b) : g.rnd a ≤ g.rnd b := by
  unfold GoFloat.rnd
  by_cases ha : a < 0
  · by_cases hb : b < 0
    · rw [if_pos ha, if_pos hb]
      have := roundFrac_mono g.prec g.sub g.prec_pos (a := b.natAbs) (b := a.natAbs) (by omega)
      omega
    · rw [if_pos ha, if_neg hb]; omega
  · rw [if_neg ha, if_neg (by omega)]
    have := roundFrac_mono g.prec g.sub g.prec_pos (a := a.natAbs) (b := b.natAbs) (by omega)
    omega

theorem log2_lt_of_lt {n k : Nat} (hk : 1 ≤ k) (h : n < 2 ^ k) : Nat.log2 n < k := by
  by_cases h0 : n = 0
  · subst h0; simp [Nat.log2_zero]; omega
  · rwa [Nat.log2_lt h0]

/-- Powers of two are representable. -/
theorem roundFrac_two_pow (p s j : Nat) (hp : 1 ≤ p) (hs : s ≤ j) : roundFrac p s (2 ^ j) 1 = 2 ^ j := by
  apply roundFrac_exact
  apply Nat.pow_dvd_pow
  unfold ulpExp
  rw [Nat.log2_two_pow]
  show max _ _ ≤ _
  omega

/-- Integers of at most `p` bits are representable. -/
theorem roundFrac_int (p s n : Nat) (hp : 1 ≤ p) (hs : s ≤ Flt.exp) (h : n ≤ 2 ^ p) : roundFrac p s (n * Flt.one) 1 = n * Flt.one := by
  unfold Flt.one
  rcases Nat.lt_or_eq_of_le h with hlt | rfl
  · apply roundFrac_exact
    refine Nat.dvd_trans (Nat.pow_dvd_pow 2 ?_) (Nat.dvd_mul_left _ n)
    have : n * 2 ^ Flt.exp < 2 ^ (p + Flt.exp) := by
      rw [Nat.pow_add]
      exact Nat.mul_lt_mul_of_pos_right hlt (Nat.two_pow_pos _)
    have := log2_lt_of_lt (by omega) this
    unfold ulpExp
    show max _ _ ≤ _
    omega
  · rw [← Nat.pow_add]
    exact roundFrac_two_pow p s _ hp (by omega)

/-- Integers up to 2^prec are far from the limit of the type. -/
theorem GoFloat.limit_gt (g : GoFloat) : 2 ^ (g.prec + 1) * Flt.one < g.limit := by
  unfold Flt.one
  rw [← Nat.pow_add]
  cases g
  · exact Nat.pow_lt_pow_right (by decide) (by simp only [GoFloat.prec]; omega)
  · exact Nat.pow_lt_pow_right (by decide) (by simp only [GoFloat.prec]; omega)

theorem GoFloat.round_lt_limit (g : GoFloat) (a : Nat) (h : a ≤ 2 ^ (g.prec + 1) * Flt.one) : roundFrac g.prec g.sub a 1 < g.limit := by
  refine Nat.lt_of_le_of_lt (roundFrac_mono g.prec g.sub g.prec_pos h) ?_
  have : roundFrac g.prec g.sub (2 ^ (g.prec + 1) * Flt.one) 1 = 2 ^ (g.prec + 1) * Flt.one := by
    unfold Flt.one
    rw [← Nat.pow_add]
    have := g.sub_le
    exact roundFrac_two_pow _ _ _ g.prec_pos (by omega)
  rw [this]
  exact g.limit_gt

theorem GoFloat.rnd_int (g : GoFloat) (n : Int) (h : n.natAbs ≤ 2 ^ g.prec) : g.rnd (n * Flt.one) = n * Flt.one := by
  have e : (n * Flt.one).natAbs = n.natAbs * Flt.one := by rw [Int.natAbs_mul]; rfl
  unfold GoFloat.rnd
  rw [e, roundFrac_int _ _ _ g.prec_pos g.sub_le h]
  have hp := Flt.one_pos
  by_cases hn : n < 0
  · rw [if_pos (Int.mul_neg_of_neg_of_pos hn hp)]
    rw [Int.natCast_mul, ← Int.neg_mul]
    congr 1
    omega
  · rw [if_neg (by have := Int.mul_nonneg (by omega : 0 ≤ n) (Int.le_of_lt hp); omega)]
    rw [Int.natCast_mul]
    congr 1
    omega

/-- Rounding an integer of at most `prec` bits gives that integer. -/
theorem GoFloat.ofUnits_int (g : GoFloat) (n : Int) (h : n.natAbs ≤ 2 ^ g.prec) : g.ofUnits (n * Flt.one) = Flt.ofInt n := by
  rw [g.ofUnits_eq, g.rnd_int n h]
  · rfl
  · have e : (n * Flt.one).natAbs = n.natAbs * Flt.one := by rw [Int.natAbs_mul]; rfl
    rw [e]
    apply g.round_lt_limit
    apply Nat.mul_le_mul_right
    rw [Nat.pow_succ]
    omega

theorem GoFloat.add_int (g : GoFloat) (a b : Int) (h : (a + b).natAbs ≤ 2 ^ g.prec) : g.add (Flt.ofInt a) (Flt.ofInt b) = Flt.ofInt (a + b) := by
  show g.ofUnits (a * Flt.one + b * Flt.one) = _
  rw [← Int.add_mul, g.ofUnits_int _ h]

/-- A float of at least `n` plus one is at least `n + 1`: rounding does not pass an integer. -/
theorem GoFloat.ofUnits_ge (g : GoFloat) (n z : Int) (hn : n.natAbs ≤ 2 ^ g.prec) (hz : n * Flt.one ≤ z)
    (hb : z.natAbs ≤ 2 ^ (g.prec + 1) * Flt.one) : ∃ y, g.ofUnits z = .fin y ∧ n * Flt.one ≤ y := by
  refine ⟨_, g.ofUnits_eq z (g.round_lt_limit _ hb), ?_⟩
  have := g.rnd_mono hz
  rwa [g.rnd_int n hn] at this

end Stl4go
