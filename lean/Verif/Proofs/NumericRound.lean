import Verif.Proofs.NumericSum
/-! # The rounding of the float model is the nearest float -/
namespace Stl4go
variable {pf : Platform}

theorem roundDiv_nearest (a q k : Nat) (hq : 0 < q) :
    ((roundDiv a q * q : Nat) - (a : Int)).natAbs ≤ ((k * q : Nat) - (a : Int)).natAbs := by
  have h1 := Nat.div_add_mod a q
  have h2 := Nat.mod_lt a hq
  rw [Nat.mul_comm] at h1
  have h3 : k * q ≤ a / q * q ∨ (a / q + 1) * q ≤ k * q := by
    rcases Nat.lt_or_ge k (a / q + 1) with h | h
    · exact Or.inl (Nat.mul_le_mul_right q (by omega))
    · exact Or.inr (Nat.mul_le_mul_right q h)
  have h4 : (a / q + 1) * q = a / q * q + q := by rw [Nat.add_mul, Nat.one_mul]
  have h5 : roundDiv a q * q = a / q * q ∧ 2 * (a % q) ≤ q ∨ roundDiv a q * q = a / q * q + q ∧ q ≤ 2 * (a % q) := by
    unfold roundDiv
    split
    · exact Or.inl ⟨rfl, by omega⟩
    · split
      · exact Or.inr ⟨h4, by omega⟩
      · split
        · exact Or.inl ⟨rfl, by omega⟩
        · exact Or.inr ⟨h4, by omega⟩
  omega

/-- A rounded number is representable. -/
theorem roundFrac_rep (p s a b : Nat) (hp : 1 ≤ p) : ∃ m e, roundFrac p s a b = m * 2 ^ e ∧ m < 2 ^ p ∧ s ≤ e := by
  unfold roundFrac
  generalize he : ulpExp p s (a / b) = e
  have hse : s ≤ e := by rw [← he]; exact Nat.le_max_right _ _
  have hle : Nat.log2 (a / b) + 1 ≤ p + e := by
    have : Nat.log2 (a / b) + 1 - p ≤ e := by rw [← he]; exact Nat.le_max_left _ _
    omega
  have h1 : a / b < 2 ^ (p + e) := Nat.lt_of_lt_of_le Nat.lt_log2_self (Nat.pow_le_pow_right (by decide) hle)
  have h2 : a / (b * 2 ^ e) < 2 ^ p := by
    rw [← Nat.div_div_eq_div_mul]
    exact Nat.div_lt_of_lt_mul (by rw [← Nat.pow_add, Nat.add_comm e p]; exact h1)
  have h3 := roundDiv_le a (b * 2 ^ e)
  rcases Nat.lt_or_ge (roundDiv a (b * 2 ^ e)) (2 ^ p) with h | h
  · exact ⟨_, e, rfl, h, hse⟩
  · refine ⟨2 ^ (p - 1), e + 1, ?_, Nat.pow_lt_pow_right (by decide) (by omega), by omega⟩
    have : roundDiv a (b * 2 ^ e) = 2 ^ p := by omega
    rw [this, ← Nat.pow_add, ← Nat.pow_add]
    congr 1
    omega

/-- No representable number is closer. -/
theorem roundFrac_nearest (p s a b : Nat) (hp : 1 ≤ p) (hb : 0 < b) (m e : Nat) (hm : m < 2 ^ p) (he : s ≤ e) :
    ((roundFrac p s a b * b : Nat) - (a : Int)).natAbs ≤ ((m * 2 ^ e * b : Nat) - (a : Int)).natAbs := by
  have hq : ∀ E, 0 < b * 2 ^ E := fun E => Nat.mul_pos hb (Nat.two_pow_pos E)
  have hcomm : ∀ k E, k * 2 ^ E * b = k * (b * 2 ^ E) := fun k E => by rw [Nat.mul_assoc, Nat.mul_comm (2 ^ E)]
  unfold roundFrac
  generalize hE : ulpExp p s (a / b) = E
  rw [hcomm]
  by_cases hle : E ≤ e
  · have : m * 2 ^ e * b = (m * 2 ^ (e - E)) * (b * 2 ^ E) := by
      rw [← hcomm, Nat.mul_assoc m (2 ^ (e - E)), ← Nat.pow_add, Nat.sub_add_cancel hle]
    rw [this]
    exact roundDiv_nearest a (b * 2 ^ E) _ (hq E)
  · -- the spacing there is finer, so the number is below the power of two under `a / b`
    have hlog : E = Nat.log2 (a / b) + 1 - p ∧ s < E := by
      unfold ulpExp at hE
      have : max (Nat.log2 (a / b) + 1 - p) s = E := hE
      omega
    have h0 : a / b ≠ 0 := by
      intro h
      rw [h] at hlog
      simp [Nat.log2_zero] at hlog
      omega
    have h1 : 2 ^ (p - 1 + E) ≤ a / b := by
      have : p - 1 + E = Nat.log2 (a / b) := by omega
      rw [this]
      exact Nat.log2_self_le h0
    have h2 : m * 2 ^ e ≤ 2 ^ (p - 1 + E) := by
      have h3 : m * 2 ^ e ≤ 2 ^ p * 2 ^ e := Nat.mul_le_mul_right _ (by omega)
      rw [← Nat.pow_add] at h3
      exact Nat.le_trans h3 (Nat.pow_le_pow_right (by decide) (by omega))
    have h4 : 2 ^ (p - 1 + E) * b ≤ a := Nat.le_trans (Nat.mul_le_mul_right b h1) (Nat.div_mul_le_self a b)
    have h5 : m * 2 ^ e * b ≤ 2 ^ (p - 1 + E) * b := Nat.mul_le_mul_right b h2
    have h6 := roundDiv_nearest a (b * 2 ^ E) (2 ^ (p - 1)) (hq E)
    have h7 : 2 ^ (p - 1) * (b * 2 ^ E) = 2 ^ (p - 1 + E) * b := by rw [← hcomm, ← Nat.pow_add]
    rw [h7] at h6
    omega

/-- Rounding does not pass a representable number. -/
theorem roundFrac_le (p s a b : Nat) (hp : 1 ≤ p) (hb : 0 < b) (m e : Nat) (hm : m < 2 ^ p) (he : s ≤ e) (h : a ≤ m * 2 ^ e * b) :
    roundFrac p s a b ≤ m * 2 ^ e := by
  have := roundFrac_nearest p s a b hp hb m e hm he
  have h2 : roundFrac p s a b * b ≤ m * 2 ^ e * b := by omega
  exact Nat.le_of_mul_le_mul_right h2 hb

/-- Scaling a fraction changes nothing. -/
theorem roundFrac_scale (p s a b c : Nat) (hc : 0 < c) : roundFrac p s (a * c) (b * c) = roundFrac p s a b := by
  unfold roundFrac
  rw [Nat.mul_div_mul_right _ _ hc]
  generalize ulpExp p s (a / b) = e
  congr 1
  have hx : b * c * 2 ^ e = b * 2 ^ e * c := by rw [Nat.mul_assoc, Nat.mul_comm c, ← Nat.mul_assoc]
  rw [hx]
  generalize b * 2 ^ e = q
  unfold roundDiv
  rw [Nat.mul_div_mul_right _ _ hc, Nat.mul_mod_mul_right]
  have h1 : 2 * (a % q * c) = 2 * (a % q) * c := by rw [Nat.mul_assoc]
  rw [h1]
  by_cases h2 : 2 * (a % q) < q
  · rw [if_pos h2, if_pos (Nat.mul_lt_mul_of_pos_right h2 hc)]
  · rw [if_neg h2, if_neg (by intro h; exact h2 (Nat.lt_of_mul_lt_mul_right h))]
    by_cases h3 : q < 2 * (a % q)
    · rw [if_pos h3, if_pos (Nat.mul_lt_mul_of_pos_right h3 hc)]
    · rw [if_neg h3, if_neg (by intro h; exact h3 (Nat.lt_of_mul_lt_mul_right h))]

/-- A float result is a nearest float. -/
theorem GoFloat.round_nearest (g : GoFloat) (num den : Int) (hd : 0 < den) (hlim : roundFrac g.prec g.sub num.natAbs den.natAbs < g.limit) :
    ∃ r, g.round (decide (num < 0)) num.natAbs den.natAbs = .fin r ∧ g.Nearest num den r := by
  refine ⟨_, if_pos hlim, ?_, ?_⟩
  · obtain ⟨m, e, h1, h2, h3⟩ := roundFrac_rep g.prec g.sub num.natAbs den.natAbs g.prec_pos
    refine ⟨?_, m, e, ?_, h2, h3⟩
    · split <;> omega
    · rw [← h1]; split <;> omega
  · intro x hx
    obtain ⟨_, m, e, h1, h2, h3⟩ := hx
    have hn := roundFrac_nearest g.prec g.sub num.natAbs den.natAbs g.prec_pos (by omega) m e h2 h3
    rw [← h1] at hn
    generalize hr : roundFrac g.prec g.sub num.natAbs den.natAbs = r at hn
    obtain ⟨d, rfl⟩ : ∃ d : Nat, den = d := ⟨den.toNat, by omega⟩
    simp only [Int.natAbs_natCast] at hn
    rcases Int.natAbs_eq x with hx | hx <;> generalize x.natAbs = y at hx hn <;> subst hx <;> by_cases hneg : num < 0 <;>
      simp only [hneg, decide_true, decide_false, if_true, Bool.false_eq_true, if_false, Int.neg_mul, Int.natCast_mul] at hn ⊢ <;>
      have p1 : (0 : Int) ≤ (r : Int) * d := Int.mul_nonneg (by omega) (by omega) <;>
      have p2 : (0 : Int) ≤ (y : Int) * d := Int.mul_nonneg (by omega) (by omega) <;> omega

/-- A representable number is not changed by rounding. -/
theorem GoFloat.Rep.ofUnits {g : GoFloat} {z : Int} (h : g.Rep z) : g.ofUnits z = .fin z := by
  obtain ⟨hl, m, e, h1, h2, h3⟩ := h
  have hn := roundFrac_nearest g.prec g.sub z.natAbs 1 g.prec_pos (by decide) m e h2 h3
  rw [← h1] at hn
  have hr : roundFrac g.prec g.sub z.natAbs 1 = z.natAbs := by omega
  unfold GoFloat.ofUnits GoFloat.round
  rw [hr, if_pos hl]
  congr 1
  by_cases hneg : z < 0 <;> simp only [hneg, decide_true, decide_false, if_true, Bool.false_eq_true, if_false] <;> omega

/-! ## Means of floats -/

theorem sumAs_float (f g : GoFloat) (a : List Int) (hv : ∀ v ∈ a, v.natAbs ≤ 2 ^ 53) (hk : ∀ k, ((a.take k).sum).natAbs ≤ 2 ^ 53) :
    sumAs pf (.flt f) (.flt g) (a.map Flt.ofInt) = f.ofUnits (a.sum * Flt.one) := by
  have e0 : sumLoop pf (.flt .float64) (.flt g) (a.map Flt.ofInt) (Flt.fin 0) = Flt.ofInt a.sum := by
    have := sumLoop_floats (pf := pf) g a 0 hv (by simpa using hk)
    rw [← zero_ofInt] at this
    simpa using this
  cases g <;>
  · show NKind.conv pf (.flt .float64) (.flt f) (sumLoop pf (.flt .float64) _ _ (Flt.fin 0)) = _
    rw [e0]
    rfl

/-- `AverageAs[float64]` when the sum is exact. -/
theorem averageAs_float (g : GoFloat) (a : List Int) (hv : ∀ v ∈ a, v.natAbs ≤ 2 ^ 53) (hk : ∀ k, ((a.take k).sum).natAbs ≤ 2 ^ 53)
    (hne : a ≠ []) (hlen : a.length ≤ 2 ^ 53) :
    ∃ r, averageAs pf (.flt .float64) (.flt g) (a.map Flt.ofInt) = .ret (.fin r) ∧
      GoFloat.float64.Nearest (a.sum * Flt.one) a.length r := by
  have hs : a.sum.natAbs ≤ 2 ^ 53 := by simpa using hk a.length
  have hone : 0 < Flt.one := Nat.two_pow_pos _
  have hpos := List.length_pos_iff.2 hne
  have e1 := sumAs_float (pf := pf) .float64 g a hv hk
  rw [GoFloat.ofUnits_int .float64 _ hs] at e1
  have e2 : NKind.conv pf (.int .int) (.flt .float64) ((a.length : Nat) : Int) = Flt.ofInt a.length :=
    GoFloat.ofUnits_int .float64 _ (by rw [Int.natAbs_natCast]; exact hlen)
  have hna : (a.sum * (Flt.one : Int)).natAbs = a.sum.natAbs * Flt.one := by rw [Int.natAbs_mul, Int.natAbs_natCast]
  have hlim : roundFrac GoFloat.float64.prec GoFloat.float64.sub (a.sum * (Flt.one : Int)).natAbs ((a.length : Int)).natAbs < GoFloat.float64.limit := by
    have hle : roundFrac GoFloat.float64.prec GoFloat.float64.sub (a.sum * (Flt.one : Int)).natAbs ((a.length : Int)).natAbs ≤ 2 ^ 52 * 2 ^ (Flt.exp + 1) := by
      apply roundFrac_le _ _ _ _ (by decide) (by omega) _ _ (by decide) (Nat.zero_le _)
      rw [hna, Int.natAbs_natCast]
      have h1 : (2 : Nat) ^ 52 * 2 ^ (Flt.exp + 1) = 2 ^ 53 * Flt.one := by
        rw [Flt.one, ← Nat.pow_add, ← Nat.pow_add]
        congr 1
      rw [h1]
      have h2 : a.sum.natAbs * Flt.one ≤ 2 ^ 53 * Flt.one := Nat.mul_le_mul_right _ hs
      exact Nat.le_trans h2 (Nat.le_mul_of_pos_right _ hpos)
    refine Nat.lt_of_le_of_lt hle ?_
    show 2 ^ 52 * 2 ^ (Flt.exp + 1) < 2 ^ (Flt.exp + 1024)
    rw [← Nat.pow_add]
    exact Nat.pow_lt_pow_right (by decide) (by omega)
  obtain ⟨r, hr, hn⟩ := GoFloat.float64.round_nearest (a.sum * Flt.one) a.length (by omega) hlim
  refine ⟨r, ?_, hn⟩
  unfold averageAs
  rw [e1, List.length_map]
  show NKind.div pf (.flt .float64) (Flt.ofInt a.sum) (NKind.conv pf (.int .int) (.flt .float64) ((a.length : Nat) : Int)) = _
  rw [e2, ← hr]
  have hlpos : (0 : Int) < (a.length : Int) * Flt.one := Int.mul_pos (by omega) (by omega)
  show Outcome.ret (GoFloat.div .float64 (.fin (a.sum * Flt.one)) (.fin ((a.length : Int) * Flt.one))) = _
  simp only [GoFloat.div]
  rw [if_neg (by omega)]
  have hd : decide ((a.length : Int) * (Flt.one : Int) < 0) = false := by rw [decide_eq_false_iff_not]; omega
  have hna2 : ((a.length : Int) * (Flt.one : Int)).natAbs = a.length * Flt.one := by rw [Int.natAbs_mul, Int.natAbs_natCast, Int.natAbs_natCast]
  rw [hd, Bool.bne_false, hna2, hna, Int.natAbs_natCast]
  unfold GoFloat.round
  rw [roundFrac_scale _ _ _ _ _ hone]

end Stl4go
