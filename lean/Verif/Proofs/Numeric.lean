import Verif.Spec.Numeric
/-! # Lemmas about integer wrap-around and float rounding -/
namespace Stl4go

/-! ## Integers -/

/-- Platforms Go runs on. -/
def Platform.Real (pf : Platform) : Prop := pf.w = 32 ∨ pf.w = 64

theorem GoInt.bits_pos {w : Nat} (hw : w = 32 ∨ w = 64) (g : GoInt) : 1 ≤ g.bits w := by cases g <;> simp [GoInt.bits] <;> omega
theorem GoInt.bits_le {w : Nat} (hw : w = 32 ∨ w = 64) (g : GoInt) : g.bits w ≤ 64 := by cases g <;> simp [GoInt.bits] <;> omega

theorem two_pow_split {b : Nat} (h : 1 ≤ b) : (2 : Int) ^ b = 2 * 2 ^ (b - 1) := by
  obtain ⟨c, rfl⟩ : ∃ c, b = c + 1 := ⟨b - 1, by omega⟩
  rw [Int.pow_succ, Nat.add_sub_cancel, Int.mul_comm]

theorem two_pow_pos (b : Nat) : (0 : Int) < 2 ^ b := Int.pow_pos (by decide)

theorem GoInt.wrap_emod (w : Nat) (g : GoInt) (z : Int) : g.wrap w z % 2 ^ g.bits w = z % 2 ^ g.bits w := by
  unfold GoInt.wrap
  split
  · have := Int.bmod_emod (x := z) (m := 2 ^ g.bits w)
    simpa using this
  · exact Int.emod_emod_of_dvd _ (Int.dvd_refl _)

theorem GoInt.wrap_congr (w : Nat) (g : GoInt) {a b : Int} (h : a % 2 ^ g.bits w = b % 2 ^ g.bits w) : g.wrap w a = g.wrap w b := by
  unfold GoInt.wrap
  split
  · have ha := Int.emod_bmod (x := a) (n := 2 ^ g.bits w)
    have hb := Int.emod_bmod (x := b) (n := 2 ^ g.bits w)
    rw [← ha, ← hb]
    simp [h]
  · exact h

theorem GoInt.wrap_holds {w : Nat} (hw : w = 32 ∨ w = 64) (g : GoInt) (z : Int) : g.Holds w (g.wrap w z) := by
  have hs := two_pow_split (g.bits_pos hw)
  have hp := two_pow_pos (g.bits w - 1)
  unfold GoInt.Holds GoInt.wrap GoInt.min GoInt.max
  split
  · have h1 := Int.le_bmod (x := z) (m := 2 ^ g.bits w) (Nat.two_pow_pos _)
    have h2 := Int.bmod_lt (x := z) (m := 2 ^ g.bits w) (Nat.two_pow_pos _)
    simp only [Int.natCast_pow, Int.cast_ofNat_Int] at h1 h2
    generalize (2 : Int) ^ g.bits w = N at *
    generalize (2 : Int) ^ (g.bits w - 1) = M at *
    omega
  · have h1 := Int.emod_nonneg z (Int.ne_of_gt (two_pow_pos (g.bits w)))
    have h2 := Int.emod_lt_of_pos z (two_pow_pos (g.bits w))
    omega

theorem GoInt.wrap_of_holds {w : Nat} (hw : w = 32 ∨ w = 64) (g : GoInt) {z : Int} (h : g.Holds w z) : g.wrap w z = z := by
  have hs := two_pow_split (g.bits_pos hw)
  unfold GoInt.Holds GoInt.min GoInt.max at h
  unfold GoInt.wrap
  split
  · rename_i hg
    simp only [hg, if_true] at h
    apply Int.bmod_eq_of_le_mul_two
    · simp only [Int.natCast_pow, Int.cast_ofNat_Int]; omega
    · simp only [Int.natCast_pow, Int.cast_ofNat_Int]; omega
  · rename_i hg
    simp only [hg] at h
    exact Int.emod_eq_of_lt (by simpa using h.1) (by have := h.2; simp at this; omega)

theorem GoInt.wrap_reduces {w : Nat} (hw : w = 32 ∨ w = 64) (g : GoInt) (z : Int) : g.Reduces w z (g.wrap w z) := by
  refine ⟨g.wrap_holds hw z, ?_⟩
  have h := g.wrap_emod w z
  have hd : (2 : Int) ^ g.bits w ∣ g.wrap w z - z := Int.dvd_of_emod_eq_zero (Int.emod_eq_emod_iff_emod_sub_eq_zero.1 h)
  obtain ⟨n, hn⟩ := hd
  exact ⟨n, by rw [Int.mul_comm] at hn; omega⟩

/-- The reduction is unique. -/
theorem GoInt.Reduces.eq {w : Nat} (hw : w = 32 ∨ w = 64) {g : GoInt} {z r : Int} (h : g.Reduces w z r) : r = g.wrap w z := by
  obtain ⟨h1, n, hn⟩ := h
  rw [← g.wrap_of_holds hw h1]
  apply g.wrap_congr
  rw [hn]
  exact Int.add_mul_emod_self_right ..

theorem GoInt.wrap_add_left (w : Nat) (g : GoInt) (a b : Int) : g.wrap w (g.wrap w a + b) = g.wrap w (a + b) := by
  apply g.wrap_congr
  rw [Int.add_emod, g.wrap_emod, ← Int.add_emod]

theorem GoInt.wrap_add_right (w : Nat) (g : GoInt) (a b : Int) : g.wrap w (a + g.wrap w b) = g.wrap w (a + b) := by
  rw [Int.add_comm, g.wrap_add_left, Int.add_comm]

/-- Going through a wider type changes nothing. -/
theorem GoInt.wrap_wrap {w : Nat} (g g' : GoInt) (h : g.bits w ≤ g'.bits w) (z : Int) : g.wrap w (g'.wrap w z) = g.wrap w z := by
  apply g.wrap_congr
  have hd : (2 : Int) ^ g.bits w ∣ 2 ^ g'.bits w := ⟨2 ^ (g'.bits w - g.bits w), by rw [← Int.pow_add]; congr 1; omega⟩
  rw [← Int.emod_emod_of_dvd (g'.wrap w z) hd, g'.wrap_emod, Int.emod_emod_of_dvd _ hd]

/-! ## Rounding -/

theorem roundDiv_ge (a q : Nat) : a / q ≤ roundDiv a q := by
  unfold roundDiv; split <;> (try split) <;> (try split) <;> omega
theorem roundDiv_le (a q : Nat) : roundDiv a q ≤ a / q + 1 := by
  unfold roundDiv; split <;> (try split) <;> (try split) <;> omega

theorem roundDiv_exact (n q : Nat) (hq : 0 < q) : roundDiv (n * q) q = n := by
  unfold roundDiv
  simp [Nat.mul_mod_left, Nat.mul_div_cancel _ hq, hq]

theorem roundDiv_mono (q : Nat) {a b : Nat} (h : a ≤ b) : roundDiv a q ≤ roundDiv b q := by
  have hd : a / q ≤ b / q := Nat.div_le_div_right h
  rcases Nat.lt_or_eq_of_le hd with hlt | heq
  · exact Nat.le_trans (roundDiv_le a q) (Nat.le_trans hlt (roundDiv_ge b q))
  · have hm : a % q ≤ b % q := by
      have e1 := Nat.div_add_mod a q
      have e2 := Nat.div_add_mod b q
      rw [← heq] at e2
      omega
    unfold roundDiv
    rw [← heq]
    split <;> (try split) <;> (try split) <;> (try split) <;> (try split) <;> omega

theorem ulpExp_mono (p s : Nat) {a b : Nat} (h : a ≤ b) : ulpExp p s a ≤ ulpExp p s b := by
  have : Nat.log2 a ≤ Nat.log2 b := by
    by_cases h0 : a = 0
    · subst h0; simp [Nat.log2_zero]
    · have hb : b ≠ 0 := by omega
      rw [Nat.le_log2 hb]
      exact Nat.le_trans (Nat.log2_self_le h0) h
  unfold ulpExp
  show max _ _ ≤ max _ _
  omega

theorem roundFrac_one (p s n : Nat) : roundFrac p s n 1 = roundDiv n (2 ^ ulpExp p s n) * 2 ^ ulpExp p s n := by
  simp [roundFrac]

/-- Numbers that are a multiple of their spacing are not changed. -/
theorem roundFrac_exact (p s n : Nat) (h : 2 ^ ulpExp p s n ∣ n) : roundFrac p s n 1 = n := by
  rw [roundFrac_one]
  obtain ⟨k, hk⟩ := h
  generalize ulpExp p s n = e at hk ⊢
  subst hk
  rw [Nat.mul_comm (2 ^ e) k, roundDiv_exact k _ (Nat.two_pow_pos e)]

/-- Rounding keeps the order. -/
theorem roundFrac_mono (p s : Nat) (hp : 1 ≤ p) {a b : Nat} (h : a ≤ b) : roundFrac p s a 1 ≤ roundFrac p s b 1 := by
  rw [roundFrac_one, roundFrac_one]
  have he := ulpExp_mono p s h
  rcases Nat.lt_or_eq_of_le he with hlt | heq
  · -- `b` has the larger spacing: 2^(log2 b) is between them
    generalize hea : ulpExp p s a = ea at *
    generalize heb : ulpExp p s b = eb at *
    have hb0 : b ≠ 0 := by
      intro e; subst e
      have : a = 0 := by omega
      subst this; omega
    have hlb : eb = Nat.log2 b + 1 - p := by
      have hsa : s ≤ ea := by rw [← hea]; exact Nat.le_max_right _ _
      have : eb = max (Nat.log2 b + 1 - p) s := heb.symm
      omega
    have hab : Nat.log2 a + 1 - p ≤ ea := by rw [← hea]; exact Nat.le_max_left _ _
    -- a < 2^(log2 b)
    have hla : Nat.log2 a < Nat.log2 b := by omega
    have ha : a < 2 ^ Nat.log2 b := Nat.lt_of_lt_of_le Nat.lt_log2_self (Nat.pow_le_pow_right (by decide) hla)
    have hbl : 2 ^ Nat.log2 b ≤ b := Nat.log2_self_le hb0
    -- both spacings divide 2^(log2 b)
    have d1 : ea ≤ Nat.log2 b := by omega
    have d2 : eb ≤ Nat.log2 b := by omega
    have up : roundDiv a (2 ^ ea) * 2 ^ ea ≤ 2 ^ Nat.log2 b := by
      have e1 : 2 ^ Nat.log2 b = 2 ^ (Nat.log2 b - ea) * 2 ^ ea := by rw [← Nat.pow_add]; congr 1; omega
      have := roundDiv_mono (2 ^ ea) (Nat.le_of_lt ha)
      rw [e1] at this ⊢
      rw [roundDiv_exact _ _ (Nat.two_pow_pos _)] at this
      exact Nat.mul_le_mul_right _ this
    have down : 2 ^ Nat.log2 b ≤ roundDiv b (2 ^ eb) * 2 ^ eb := by
      have e1 : 2 ^ Nat.log2 b = 2 ^ (Nat.log2 b - eb) * 2 ^ eb := by rw [← Nat.pow_add]; congr 1; omega
      have := roundDiv_mono (2 ^ eb) hbl
      rw [e1] at this ⊢
      rw [roundDiv_exact _ _ (Nat.two_pow_pos _)] at this
      exact Nat.mul_le_mul_right _ this
    exact Nat.le_trans up down
  · rw [← heq]
    exact Nat.mul_le_mul_right _ (roundDiv_mono _ h)

end Stl4go
