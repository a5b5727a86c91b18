import Verif.Proofs.AverageBetween
import Verif.Props.FloatError
/-! # C156: Average lies between the smallest and the largest element -/
namespace Stl4go
variable {pf : Platform}

/-- C156, for integers. -/
def C156_statement_int : Prop := ∀ (pf : Platform), pf.Real → ∀ (T : GoInt) (a : List Int), a ≠ [] → (∀ v ∈ a, T.Holds pf.w v) →
  ∃ r : Int, average pf (.int T) a = .ret r ∧ Between a r

/-- C156, for finite floats, in units. -/
def C156_statement_float : Prop := ∀ (pf : Platform), pf.Real → ∀ (g : GoFloat) (zs : List Int), zs ≠ [] → (∀ z ∈ zs, g.Rep z) →
  ∃ r : Int, average pf (.flt g) (zs.map Flt.fin) = .ret (.fin r) ∧ Between zs r

/-- The full statement. -/
def C156_statement : Prop := C156_statement_int ∧ C156_statement_float

/-- C156 is false for int64: the average of the largest int64 and itself is -1. -/
theorem C156_counterexample_int : ¬ C156_statement_int := by
  intro h
  obtain ⟨r, h1, h2⟩ := h pf64 (Or.inr rfl) .int64 [9223372036854775807, 9223372036854775807] (by simp) (by decide)
  have h3 : average pf64 (.int .int64) ([9223372036854775807, 9223372036854775807] : List Int) = .ret (-1 : Int) := by decide +kernel
  rw [h3] at h1
  have h4 : (-1 : Int) = r := Outcome.ret.inj h1
  subst h4
  exact absurd h2 (by decide)

/-- 0.1, ten times, in units. -/
def tenTenths : List Int := List.replicate 10 (3602879701896397 * 2 ^ 1019)

/-- C156 is false for float64 although nothing overflows: the average of ten times 0.1 is 0.09999999999999999. -/
theorem C156_counterexample_float : ¬ C156_statement_float := by
  intro h
  obtain ⟨r, h1, h2⟩ := h pf64 (Or.inr rfl) .float64 tenTenths (List.cons_ne_nil _ _) (by
    intro z hz
    rw [List.eq_of_mem_replicate hz]
    exact ⟨by decide +kernel, 3602879701896397, 1019, by decide +kernel⟩)
  have h3 : average pf64 (.flt .float64) (tenTenths.map Flt.fin) = .ret (.fin (7205759403792793 * 2 ^ 1018)) := by decide +kernel
  rw [h3] at h1
  have h4 : (7205759403792793 * 2 ^ 1018 : Int) = r := Flt.fin.inj (Outcome.ret.inj h1)
  subst h4
  exact absurd h2 (by decide +kernel)

theorem C156_counterexample : ¬ C156_statement := fun h => C156_counterexample_float h.2

/-- C156 for integers whose sum fits the type that `Average` divides in. -/
theorem C156_int_partial (hw : pf.Real) (T : GoInt) (a : List Int) (hv : ∀ v ∈ a, T.Holds pf.w v) (hlen : (a.length : Int) ≤ GoInt.int.max pf.w)
    (hs : (meanType T).Holds pf.w a.sum) (hne : a ≠ []) : ∃ r : Int, average pf (.int T) a = .ret r ∧ Between a r := by
  refine ⟨_, C73_average_partial hw T a hv hlen hs hne, ?_⟩
  obtain ⟨⟨x, hx, h1⟩, ⟨y, hy, h2⟩⟩ := mean_between a hne
  have hn : (0 : Int) < a.length := by exact_mod_cast List.length_pos_iff.2 hne
  have h3 := tdiv_between hn h1 h2
  exact ⟨⟨x, hx, h3.1⟩, ⟨y, hy, h3.2⟩⟩

/-- C156 for integers of at most 32 bits: fewer than 2^31 of them never overflow. -/
theorem C156_small_partial (hw : pf.Real) (T : GoInt) (hT : T ∈ [GoInt.int8, .uint8, .int16, .uint16, .int32, .uint32]) (a : List Int)
    (hv : ∀ v ∈ a, T.Holds pf.w v) (hlen : (a.length : Int) < 2 ^ 31) (hne : a ≠ []) : ∃ r : Int, average pf (.int T) a = .ret r ∧ Between a r := by
  have hb : ∀ v ∈ a, -4294967296 ≤ v ∧ v ≤ 4294967296 := by
    intro v h
    have := hv v h
    simp only [List.mem_cons, List.not_mem_nil, or_false] at hT
    rcases hT with rfl | rfl | rfl | rfl | rfl | rfl <;> simp [GoInt.Holds, GoInt.min, GoInt.max, GoInt.signed, GoInt.bits] at this <;> omega
  have hsum := sum_between a hb
  refine C156_int_partial hw T a hv ?_ ?_ hne
  · rcases hw with hw | hw <;> rw [hw] <;> simp [GoInt.max, GoInt.signed, GoInt.bits] <;> omega
  · have hm : meanType T = .int64 := by
      simp only [List.mem_cons, List.not_mem_nil, or_false] at hT
      rcases hT with rfl | rfl | rfl | rfl | rfl | rfl <;> rfl
    rw [hm]
    simp [GoInt.Holds, GoInt.min, GoInt.max, GoInt.signed, GoInt.bits]
    omega

/-- C156 for integral float64 values whose partial sums stay within 2^53. -/
theorem C156_integral_partial (a : List Int) (hv : ∀ v ∈ a, v.natAbs ≤ 2 ^ 53) (hk : ∀ k, ((a.take k).sum).natAbs ≤ 2 ^ 53) (hne : a ≠ [])
    (hlen : a.length ≤ 2 ^ 53) : ∃ r : Int, average pf (.flt .float64) (a.map Flt.ofInt) = .ret (.fin r) ∧ Between (a.map (· * (Flt.one : Int))) r := by
  obtain ⟨r, h1, h2⟩ := C87_float64 (pf := pf) a hv hk hne hlen
  refine ⟨r, h1, ?_⟩
  obtain ⟨⟨x, hx, h3⟩, ⟨y, hy, h4⟩⟩ := mean_between a hne
  have hn : (0 : Int) < a.length := by exact_mod_cast List.length_pos_iff.2 hne
  have hO : (0 : Int) < Flt.one := Flt.one_pos
  have hrep : ∀ v ∈ a, GoFloat.float64.Rep (v * Flt.one) := by
    intro v h
    have h5 := GoFloat.float64.rnd_int v (hv v h)
    have h6 := (int_units v ((hv v h).trans (by decide))).2
    rwa [h5] at h6
  refine ⟨⟨x * Flt.one, List.mem_map.2 ⟨x, hx, rfl⟩, h2.ge hn (hrep x hx) ?_⟩, ⟨y * Flt.one, List.mem_map.2 ⟨y, hy, rfl⟩, h2.le hn (hrep y hy) ?_⟩⟩
  · have := Int.mul_le_mul_of_nonneg_right h3 hO.le
    rw [Int.mul_right_comm]
    exact this
  · have := Int.mul_le_mul_of_nonneg_right h4 hO.le
    rw [Int.mul_right_comm]
    exact this

/-- C156 for any two floats whose sum does not overflow, both float types: rounding twice, or three times, does not lead out of the interval. -/
theorem C156_two_partial (g : GoFloat) (x y : Int) (hx : g.Rep x) (hy : g.Rep y) (r : Int)
    (h : average pf (.flt g) [Flt.fin x, Flt.fin y] = .ret (.fin r)) : Between [x, y] r := by
  have hx' := hx.to64
  have hy' := hy.to64
  have hc : NKind.conv pf (.int .int) (.flt .float64) ((([Flt.fin x, Flt.fin y] : List Flt).length : Nat) : Int) = Flt.fin (((2 : Nat) : Int) * Flt.one) :=
    GoFloat.float64.ofUnits_int 2 (by decide)
  have h1 : average pf (.flt g) [Flt.fin x, Flt.fin y] =
      .ret (NKind.conv pf (.flt .float64) (.flt g) (GoFloat.float64.div (sumAs pf (.flt .float64) (.flt g) [Flt.fin x, Flt.fin y])
        (NKind.conv pf (.int .int) (.flt .float64) ((([Flt.fin x, Flt.fin y] : List Flt).length : Nat) : Int)))) := by cases g <;> rfl
  have hs := sumAs_flt (pf := pf) .float64 g false false [x, y] (by
    intro z hz
    simp only [List.mem_cons, List.not_mem_nil, or_false] at hz
    rcases hz with rfl | rfl
    · exact hx
    · exact hy)
  rw [h1, hc] at h
  obtain ⟨q, h2, h3⟩ := conv64_fin (Outcome.ret.inj h)
  -- the float64 sum
  have hacc : accum [x, y] (.fin 0) = GoFloat.float64.ofUnits (x + y) := by
    show GoFloat.float64.add (GoFloat.float64.ofUnits (0 + x)) (.fin y) = _
    rw [Int.zero_add, hx'.ofUnits]
    rfl
  by_cases hl : roundFrac GoFloat.float64.prec GoFloat.float64.sub (x + y).natAbs 1 < GoFloat.float64.limit
  · have hsum : sumAs pf (.flt .float64) (.flt g) [Flt.fin x, Flt.fin y] = .fin (GoFloat.float64.rnd (x + y)) := by
      refine hs.trans ?_
      rw [hacc, GoFloat.ofUnits_eq .float64 _ hl]
      exact (rnd_rep hl).ofUnits
    rw [hsum] at h2
    have hn := div_nearest _ q 2 (by decide) h2
    have hl' : (GoFloat.float64.rnd (x + y)).natAbs < GoFloat.float64.limit := by rw [rnd_natAbs]; exact hl
    -- rounding to the element type
    have hg : ∀ z, g.Rep z → (z ≤ q → z ≤ r) ∧ (q ≤ z → r ≤ z) := by
      intro z hz
      by_cases hlg : roundFrac g.prec g.sub q.natAbs 1 < g.limit
      · rw [GoFloat.ofUnits_eq g q hlg] at h3
        have h4 : g.rnd q = r := Flt.fin.inj h3
        refine ⟨fun h5 => ?_, fun h5 => ?_⟩
        · have := g.rnd_mono h5
          rwa [hz.rnd_eq, h4] at this
        · have := g.rnd_mono h5
          rwa [hz.rnd_eq, h4] at this
      · rw [ofUnits_inf g q hlg] at h3
        exact nomatch h3
    rcases Int.le_total x y with hxy | hxy
    · have h5 := two_low hx' hxy hl'
      have h6 := two_high hy' hxy hl'
      exact ⟨⟨x, by simp, (hg x hx).1 (hn.ge (by decide) hx' (by push_cast; omega))⟩, ⟨y, by simp, (hg y hy).2 (hn.le (by decide) hy' (by push_cast; omega))⟩⟩
    · rw [Int.add_comm] at hl' hn
      have h5 := two_low hy' hxy hl'
      have h6 := two_high hx' hxy hl'
      exact ⟨⟨y, by simp, (hg y hy).1 (hn.ge (by decide) hy' (by push_cast; omega))⟩, ⟨x, by simp, (hg x hx).2 (hn.le (by decide) hx' (by push_cast; omega))⟩⟩
  · have hsum : sumAs pf (.flt .float64) (.flt g) [Flt.fin x, Flt.fin y] = .inf (decide (x + y < 0)) := by
      refine hs.trans ?_
      rw [hacc, ofUnits_inf .float64 _ hl]
      rfl
    rw [hsum] at h2
    exact nomatch h2

/-! ## Concrete cases -/

example : average pf64 (.int .int8) ([127, 127, 120] : List Int) = .ret (124 : Int) ∧ Between [127, 127, 120] 124 := by decide +kernel
example : average pf64 (.flt .float64) [Flt.fin (3602879701896397 * 2 ^ 1019), Flt.fin (3602879701896397 * 2 ^ 1020)] =
    .ret (.fin (5404319552844596 * 2 ^ 1019)) := by decide +kernel

end Stl4go
