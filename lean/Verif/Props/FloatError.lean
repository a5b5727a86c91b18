import Verif.Proofs.FloatError
import Verif.Props.Numeric
/-!
# C155: how far sums and averages of floats may be off

Floats are numbers of units (2^-1074) here, `zs` are any finite floats. `OffBy k zs r`: the distance of `r` from the exact sum of `zs` is at most
`(1 + u)^k - 1` times the sum of the absolute values, where `u = 2^-53`.
-/
namespace Stl4go
variable {pf : Platform}

/-- C155: `SumAs[float64]` of `n` floats of either type, defined or not, is off by at most what `n - 1` roundings do, whenever it is finite. -/
theorem C155_float64 (g : GoFloat) (d e : Bool) (zs : List Int) (hz : ∀ z ∈ zs, g.Rep z) (r : Int)
    (h : sumAs pf { kind := .flt .float64, defined := e } { kind := .flt g, defined := d } (zs.map Flt.fin) = Flt.fin r) :
    OffBy (zs.length - 1) zs r := by
  rw [sumAs_flt .float64 g d e zs hz] at h
  obtain ⟨s, h1, h2⟩ := conv64_fin h
  rcases accum_zero zs (fun z hz' => (hz z hz').to64) with ⟨q, h3, h4, h5⟩ | ⟨h3, _⟩
  · rw [h1] at h3
    cases h3
    rw [h4.ofUnits] at h2
    cases h2
    exact h5
  · exact absurd h1 (h3 s)

set_option exponentiation.threshold 2100 in
/-- C155: and it is finite unless the numbers are that large. -/
theorem C155_finite (g : GoFloat) (d e : Bool) (zs : List Int) (hz : ∀ z ∈ zs, g.Rep z)
    (hs : (1 + roundoff) ^ (zs.length - 1) * absSum zs < (2 : ℚ) ^ 1024 * 2 ^ 1074) :
    ∃ r, sumAs pf { kind := .flt .float64, defined := e } { kind := .flt g, defined := d } (zs.map Flt.fin) = Flt.fin r := by
  rw [sumAs_flt .float64 g d e zs hz]
  rcases accum_zero zs (fun z hz' => (hz z hz').to64) with ⟨q, h3, h4, _⟩ | ⟨_, h3⟩
  · rw [h3]
    exact ⟨q, h4.ofUnits⟩
  · have : (GoFloat.float64.limit : ℚ) = (2 : ℚ) ^ 1024 * 2 ^ 1074 := by
      have : GoFloat.float64.limit = 2 ^ (1074 + 1024) := rfl
      rw [this, Nat.cast_pow, pow_add, mul_comm]
      rfl
    rw [this] at h3
    exact absurd hs (not_lt.2 h3)

/-- C155: `SumAs[float32]`, so `Sum` of float32 values, is a float32 nearest to such a float64: one more rounding. -/
theorem C155_float32 (g : GoFloat) (d e : Bool) (zs : List Int) (hz : ∀ z ∈ zs, g.Rep z) (r : Int)
    (h : sumAs pf { kind := .flt .float32, defined := e } { kind := .flt g, defined := d } (zs.map Flt.fin) = Flt.fin r) :
    ∃ s, OffBy (zs.length - 1) zs s ∧ GoFloat.float32.Nearest s 1 r := by
  rw [sumAs_flt .float32 g d e zs hz] at h
  obtain ⟨s, h1, h2⟩ := conv64_fin h
  rcases accum_zero zs (fun z hz' => (hz z hz').to64) with ⟨q, h3, h4, h5⟩ | ⟨h3, _⟩
  · rw [h1] at h3
    cases h3
    refine ⟨s, h5, ?_⟩
    by_cases hl : roundFrac GoFloat.float32.prec GoFloat.float32.sub s.natAbs 1 < GoFloat.float32.limit
    · obtain ⟨r', h6, h7⟩ := GoFloat.float32.round_nearest s 1 (by decide) hl
      have h8 : GoFloat.float32.ofUnits s = .fin r' := h6
      rw [h8] at h2
      cases h2
      exact h7
    · rw [ofUnits_inf .float32 s hl] at h2
      exact nomatch h2
  · exact absurd h1 (h3 s)

/-- C155: the textbook form of the bound, `k u / (1 - k u)` instead of `(1 + u)^k - 1`, as long as `k u < 1`. -/
theorem C155_gamma (k : Nat) (zs : List Int) (r : Int) (h : OffBy k zs r) (hk : k * roundoff < 1) :
    |(r : ℚ) - (zs.sum : Int)| ≤ k * roundoff / (1 - k * roundoff) * absSum zs := by
  have h1 : ∀ k : Nat, (1 + roundoff) ^ k * (1 - k * roundoff) ≤ 1 := by
    intro k
    induction k with
    | zero => simp
    | succ k ih =>
      have h2 : 0 ≤ (1 + roundoff) ^ k * (roundoff * roundoff * (k + 1)) := by have := roundoff_pos; positivity
      have h3 : (1 + roundoff) ^ (k + 1) * (1 - (k + 1 : Nat) * roundoff) =
          (1 + roundoff) ^ k * (1 - k * roundoff) - (1 + roundoff) ^ k * (roundoff * roundoff * (k + 1)) := by push_cast; ring
      rw [h3]
      linarith
  refine h.trans (mul_le_mul_of_nonneg_right ?_ (absSum_nonneg zs))
  have h2 : 0 < 1 - k * roundoff := by linarith
  rw [le_div_iff₀ h2]
  have := h1 k
  linarith

/-- C155: for numbers that are not negative the bound is relative to the sum itself, and the result is not below any of the numbers. -/
theorem C155_nonneg (g : GoFloat) (d e : Bool) (zs : List Int) (hz : ∀ z ∈ zs, g.Rep z) (h0 : ∀ z ∈ zs, 0 ≤ z) (r : Int)
    (h : sumAs pf { kind := .flt .float64, defined := e } { kind := .flt g, defined := d } (zs.map Flt.fin) = Flt.fin r) :
    |(r : ℚ) - (zs.sum : Int)| ≤ ((1 + roundoff) ^ (zs.length - 1) - 1) * (zs.sum : Int) ∧ 0 ≤ r ∧ ∀ z ∈ zs, z ≤ r := by
  have h1 := C155_float64 g d e zs hz r h
  unfold OffBy at h1
  rw [absSum_of_nonneg zs h0] at h1
  refine ⟨h1, ?_⟩
  rw [sumAs_flt .float64 g d e zs hz] at h
  obtain ⟨s, h2, h3⟩ := conv64_fin h
  rcases accum_zero zs (fun z hz' => (hz z hz').to64) with ⟨q, h4, h5, _⟩ | ⟨h4, _⟩
  · rw [h2] at h4
    cases h4
    rw [h5.ofUnits] at h3
    cases h3
    exact accum_ge zs 0 _ h0 (fun z hz' => (hz z hz').to64) ⟨by decide +kernel, 0, 0, by decide⟩ (le_refl _) h2
  · exact absurd h2 (h4 s)

/-- C155: integers of a defined type are added as floats (see C72): `SumAs` is then off by less than 1 plus what `n` roundings do, if the result type
can hold all the absolute values together, and these. -/
theorem C155_defined (T R : GoInt) (e : Bool) (zs : List Int) (hz : ∀ z ∈ zs, z.natAbs ≤ 2 ^ 64) (hR : R.bits pf.w ≤ 64)
    (hs : R.signed = true ∨ ∀ z ∈ zs, 0 ≤ z) (hm : (1 + roundoff) ^ zs.length * absSum zs ≤ R.max pf.w) :
    ∃ s : Int, sumAs pf { kind := .int R, defined := e } { kind := .int T, defined := true } zs = s ∧
      |(s : ℚ) - (zs.sum : Int)| < 1 + ((1 + roundoff) ^ zs.length - 1) * absSum zs := by
  have hO : (0 : ℚ) < Flt.one := by exact_mod_cast Nat.two_pow_pos _
  have hOi : (0 : Int) < Flt.one := Flt.one_pos
  generalize hws : zs.map (fun z => GoFloat.float64.rnd (z * Flt.one)) = ws
  have hrep : ∀ w ∈ ws, GoFloat.float64.Rep w := by
    subst hws
    intro w hw
    obtain ⟨z, hz1, rfl⟩ := List.mem_map.1 hw
    exact (int_units z (hz z hz1)).2
  have hacc : sumLoop pf (.flt .float64) (.int T) zs (.fin 0) = accum ws (.fin 0) := by
    subst hws
    exact sumLoop_accum (pf := pf) (.int T) _ zs (.fin 0) (fun z hz1 => (int_units z (hz z hz1)).1)
  have hlen : ws.length = zs.length := by subst hws; simp
  obtain ⟨hA, hS⟩ := absSum_rnd zs
  rw [hws] at hA hS
  -- the bound in units
  have hB : (1 + roundoff) ^ (ws.length - 1) * absSum ws ≤ (1 + roundoff) ^ zs.length * (Flt.one * absSum zs) := by
    cases zs with
    | nil => subst hws; simp [absSum]
    | cons z zs =>
      have : (1 + roundoff) ^ (z :: zs).length = (1 + roundoff) ^ (ws.length - 1) * (1 + roundoff) := by
        rw [hlen, List.length_cons, Nat.add_sub_cancel, pow_succ]
      rw [this, mul_assoc]
      exact mul_le_mul_of_nonneg_left hA (by have := gamma_one (ws.length - 1); linarith)
  have hmax : ((R.max pf.w : Int) : ℚ) ≤ 2 ^ 64 := by
    have h1 : R.max pf.w ≤ 2 ^ 64 := by
      have h2 : ∀ b : Nat, b ≤ 64 → (2 : Int) ^ b ≤ 2 ^ 64 := fun b hb => by exact_mod_cast Nat.pow_le_pow_right (by decide) hb
      unfold GoInt.max
      split
      · have := h2 (R.bits pf.w - 1) (by omega); omega
      · have := h2 (R.bits pf.w) hR; omega
    exact_mod_cast h1
  have hB2 : (1 + roundoff) ^ zs.length * (Flt.one * absSum zs) ≤ R.max pf.w * Flt.one := by
    have := mul_le_mul_of_nonneg_right hm hO.le
    linarith
  rcases accum_zero ws hrep with ⟨q, h1, h2, h3⟩ | ⟨_, h1⟩
  · -- the float total `q`
    have hq : |(q : ℚ) - Flt.one * ((zs.sum : Int) : ℚ)| ≤ ((1 + roundoff) ^ zs.length - 1) * (Flt.one * absSum zs) := by
      have h4 : |(q : ℚ) - Flt.one * ((zs.sum : Int) : ℚ)| ≤ |(q : ℚ) - (ws.sum : Int)| + |((ws.sum : Int) : ℚ) - Flt.one * ((zs.sum : Int) : ℚ)| := by
        have := abs_add_le ((q : ℚ) - (ws.sum : Int)) (((ws.sum : Int) : ℚ) - Flt.one * ((zs.sum : Int) : ℚ))
        rwa [sub_add_sub_cancel] at this
      cases zs with
      | nil =>
        subst hws
        simp [OffBy, absSum] at h3 ⊢
        exact h3
      | cons z zs =>
        have h5 : (1 + roundoff) ^ (z :: zs).length = (1 + roundoff) ^ (ws.length - 1) * (1 + roundoff) := by
          rw [hlen, List.length_cons, Nat.add_sub_cancel, pow_succ]
        have h6 := mul_le_mul_of_nonneg_left hA (a := (1 + roundoff) ^ (ws.length - 1) - 1) (by have := gamma_one (ws.length - 1); linarith)
        have h7 : |(q : ℚ) - (ws.sum : Int)| ≤ ((1 + roundoff) ^ (ws.length - 1) - 1) * absSum ws := h3
        rw [h5]
        linarith
    have hqabs : |(q : ℚ)| ≤ R.max pf.w * Flt.one := by
      have h4 : |Flt.one * ((zs.sum : Int) : ℚ)| ≤ Flt.one * absSum zs := by
        rw [abs_mul, Nat.abs_cast]
        exact mul_le_mul_of_nonneg_left (abs_sum_le zs) hO.le
      have h5 := abs_sub_abs_le_abs_sub (q : ℚ) (Flt.one * ((zs.sum : Int) : ℚ))
      linarith
    have hqi : |q| ≤ R.max pf.w * Flt.one := by exact_mod_cast hqabs
    have hq0 : R.signed = true ∨ 0 ≤ q := by
      rcases hs with hs | hs
      · exact Or.inl hs
      · refine Or.inr (accum_ge ws 0 q ?_ hrep ⟨by decide +kernel, 0, 0, by decide⟩ (le_refl _) h1).1
        subst hws
        intro w hw
        obtain ⟨z, hz1, rfl⟩ := List.mem_map.1 hw
        have := GoFloat.float64.rnd_mono (show (0 : Int) ≤ z * Flt.one from Int.mul_nonneg (hs z hz1) hOi.le)
        rwa [GoFloat.Rep.rnd_eq ⟨by decide +kernel, 0, 0, by decide⟩] at this
    have hb := tdiv_within q (R.max pf.w) Flt.one (Nat.two_pow_pos _) hqi
    have hhold : R.min pf.w ≤ q.tdiv Flt.one ∧ q.tdiv Flt.one ≤ R.max pf.w := by
      refine ⟨?_, hb.2⟩
      rcases hq0 with hq0 | hq0
      · have h4 : R.min pf.w ≤ - R.max pf.w := by
          unfold GoInt.min GoInt.max
          rw [if_pos hq0, if_pos hq0]
          omega
        exact h4.trans hb.1
      · have h4 : R.min pf.w ≤ 0 := by
          unfold GoInt.min
          split
          · have := two_pow_pos (R.bits pf.w - 1)
            omega
          · exact le_refl _
        exact h4.trans (Int.tdiv_nonneg hq0 hOi.le)
    refine ⟨q.tdiv Flt.one, ?_, ?_⟩
    · have hk : ∀ k : NKind, k = .flt .float64 → NKind.conv pf k (.int R) (sumLoop pf k (.int T) zs k.zero) =
          NKind.conv pf (.flt .float64) (.int R) (sumLoop pf (.flt .float64) (.int T) zs (.fin 0)) := by
        rintro k rfl
        rfl
      have hk2 : sumAcc { kind := .int T, defined := true } = .flt .float64 := rfl
      unfold sumAs
      rw [hk _ hk2, hacc, h1]
      exact if_pos hhold
    · refine tdiv_off q zs.sum Flt.one (Nat.two_pow_pos _) _ ?_
      linarith
  · have h4 : (GoFloat.float64.limit : ℚ) ≤ 2 ^ 64 * Flt.one := by
      have := mul_le_mul_of_nonneg_right hmax hO.le
      linarith
    have h5 : (2 : ℚ) ^ 65 * Flt.one < GoFloat.float64.limit := by exact_mod_cast limit_big
    have h6 : (2 : ℚ) ^ 64 * Flt.one ≤ 2 ^ 65 * Flt.one := mul_le_mul_of_nonneg_right (by norm_num) hO.le
    linarith

/-- C155: `AverageAs[float64]` of floats is off by at most what `n` roundings do, or by half of the smallest float64 in addition if it is that small. -/
theorem C155_averageAs (g : GoFloat) (d e : Bool) (zs : List Int) (hz : ∀ z ∈ zs, g.Rep z) (hne : zs ≠ []) (hlen : zs.length ≤ 2 ^ 53) (r : Int)
    (h : averageAs pf { kind := .flt .float64, defined := e } { kind := .flt g, defined := d } (zs.map Flt.fin) = .ret (Flt.fin r)) :
    |(r : ℚ) - (zs.sum : Int) / zs.length| ≤ ((1 + roundoff) ^ zs.length - 1) * (absSum zs / zs.length) + 1 / 2 := by
  have hn : 0 < zs.length := List.length_pos_iff.2 hne
  have hN : (0 : ℚ) < zs.length := by exact_mod_cast hn
  have hc : NKind.conv pf (.int .int) (.flt .float64) (((zs.map Flt.fin).length : Nat) : Int) = Flt.fin ((zs.length : Int) * Flt.one) := by
    rw [List.length_map]
    exact GoFloat.float64.ofUnits_int zs.length (by rw [Int.natAbs_natCast]; exact hlen)
  have h1 : GoFloat.float64.div (sumAs pf { kind := .flt .float64, defined := e } { kind := .flt g, defined := d } (zs.map Flt.fin))
      (Flt.fin ((zs.length : Int) * Flt.one)) = Flt.fin r := by
    have h2 : averageAs pf { kind := .flt .float64, defined := e } { kind := .flt g, defined := d } (zs.map Flt.fin) =
      .ret (GoFloat.float64.div (sumAs pf { kind := .flt .float64, defined := e } { kind := .flt g, defined := d } (zs.map Flt.fin))
        (NKind.conv pf (.int .int) (.flt .float64) (((zs.map Flt.fin).length : Nat) : Int))) := rfl
    rw [h2, hc] at h
    exact Outcome.ret.inj h
  obtain ⟨q, hq⟩ : ∃ q, sumAs pf { kind := .flt .float64, defined := e } { kind := .flt g, defined := d } (zs.map Flt.fin) = Flt.fin q := by
    generalize sumAs pf { kind := .flt .float64, defined := e } { kind := .flt g, defined := d } (zs.map Flt.fin) = x at h1
    cases x with
    | fin q => exact ⟨q, rfl⟩
    | inf s => exact nomatch h1
    | nan => exact nomatch h1
  rw [hq] at h1
  have h2 := C155_float64 g d e zs hz q hq
  unfold OffBy at h2
  have h3 := div_off q r zs.length hn h1
  have hA := absSum_nonneg zs
  have h4 : |(q : ℚ)| ≤ (1 + roundoff) ^ (zs.length - 1) * absSum zs := by
    have := abs_sub_abs_le_abs_sub (q : ℚ) ((zs.sum : Int) : ℚ)
    have := abs_sum_le zs
    linarith
  have h5 : |(r : ℚ) - (zs.sum : Int) / zs.length| ≤ |(r : ℚ) - q / zs.length| + |(q : ℚ) - (zs.sum : Int)| / zs.length := by
    have h6 : (r : ℚ) - (zs.sum : Int) / zs.length = ((r : ℚ) - q / zs.length) + ((q : ℚ) - (zs.sum : Int)) / zs.length := by rw [sub_div]; ring
    rw [h6]
    refine (abs_add_le _ _).trans ?_
    rw [abs_div, Nat.abs_cast]
  have h6 : |(q : ℚ) - (zs.sum : Int)| / zs.length ≤ ((1 + roundoff) ^ (zs.length - 1) - 1) * (absSum zs / zs.length) := by
    rw [← mul_div_assoc]
    exact div_le_div_of_nonneg_right h2 hN.le
  have h7 : roundoff * (|(q : ℚ)| / zs.length) ≤ roundoff * ((1 + roundoff) ^ (zs.length - 1) * (absSum zs / zs.length)) := by
    refine mul_le_mul_of_nonneg_left ?_ roundoff_pos.le
    rw [← mul_div_assoc]
    exact div_le_div_of_nonneg_right h4 hN.le
  have h8 : (1 + roundoff) ^ zs.length = (1 + roundoff) ^ (zs.length - 1) * (1 + roundoff) := by rw [← pow_succ, Nat.sub_add_cancel hn]
  rw [h8]
  linarith

/-- C155: and so is `Average` of float64 values. -/
theorem C155_average (d : Bool) (zs : List Int) (hz : ∀ z ∈ zs, GoFloat.float64.Rep z) (hne : zs ≠ []) (hlen : zs.length ≤ 2 ^ 53) (r : Int)
    (h : average pf { kind := .flt .float64, defined := d } (zs.map Flt.fin) = .ret (Flt.fin r)) :
    |(r : ℚ) - (zs.sum : Int) / zs.length| ≤ ((1 + roundoff) ^ zs.length - 1) * (absSum zs / zs.length) + 1 / 2 := by
  cases d with
  | true => exact C155_averageAs .float64 true true zs hz hne hlen r h
  | false =>
    refine C155_averageAs (pf := pf) .float64 false false zs hz hne hlen r ?_
    have h1 : average pf { kind := .flt .float64, defined := false } (zs.map Flt.fin) =
      .ret (NKind.conv pf (.flt .float64) (.flt .float64) (GoFloat.float64.div (sumAs pf (.flt .float64) (.flt .float64) (zs.map Flt.fin))
        (NKind.conv pf (.int .int) (.flt .float64) (((zs.map Flt.fin).length : Nat) : Int)))) := rfl
    have h2 : averageAs pf (.flt .float64) (.flt .float64) (zs.map Flt.fin) =
      .ret (GoFloat.float64.div (sumAs pf (.flt .float64) (.flt .float64) (zs.map Flt.fin))
        (NKind.conv pf (.int .int) (.flt .float64) (((zs.map Flt.fin).length : Nat) : Int))) := rfl
    rw [h1] at h
    rw [h2]
    generalize hx : GoFloat.float64.div (sumAs pf (.flt .float64) (.flt .float64) (zs.map Flt.fin))
        (NKind.conv pf (.int .int) (.flt .float64) (((zs.map Flt.fin).length : Nat) : Int)) = x at h
    obtain ⟨s, h3, h4⟩ := conv64_fin (Outcome.ret.inj h)
    -- a quotient is a float already
    have hrep : GoFloat.float64.Rep s := by
      rw [h3] at hx
      exact div_rep hx
    rw [hrep.ofUnits] at h4
    rw [h3, h4]

/-! ## Concrete cases -/

/-- 0.1, 0.2 and 0.3 as float64, in units. -/
def tenths : List Int := [3602879701896397 * 2 ^ 1019, 3602879701896397 * 2 ^ 1020, 5404319552844595 * 2 ^ 1020]

/-- The ratio `|r - S| / (u A)` is between `lo / den` and `hi / den`, in whole numbers. -/
def ratioWithin (r : Int) (zs : List Int) (lo hi den : Nat) : Bool :=
  lo * (zs.map Int.natAbs).sum ≤ (r - zs.sum).natAbs * 2 ^ 53 * den && (r - zs.sum).natAbs * 2 ^ 53 * den ≤ hi * (zs.map Int.natAbs).sum

/-- All of them are floats; 0.1 + 0.2 + 0.3 gives 0.6000000000000001, which is off by 1.24 to 1.26 times `u` times the sum; the bound is `2 u + u^2`. -/
example : (∀ z ∈ tenths, GoFloat.float64.Rep z) ∧ sum pf64 (.flt .float64) (tenths.map Flt.fin) = Flt.fin (1351079888211149 * 2 ^ 1023) ∧
    ratioWithin (1351079888211149 * 2 ^ 1023) tenths 124 126 100 = true := by
  refine ⟨?_, by decide +kernel, by decide +kernel⟩
  intro z hz
  simp only [tenths, List.mem_cons, List.not_mem_nil, or_false] at hz
  rcases hz with rfl | rfl | rfl
  · exact ⟨by decide +kernel, 3602879701896397, 1019, by decide +kernel⟩
  · exact ⟨by decide +kernel, 3602879701896397, 1020, by decide +kernel⟩
  · exact ⟨by decide +kernel, 5404319552844595, 1020, by decide +kernel⟩

/-- The bound can nearly be met: 1 and 2^-53 give 1, which is off by 2^-53; the bound is `u (1 + u)`. -/
example : sum pf64 (.flt .float64) ([2 ^ 1074, 2 ^ 1021].map Flt.fin) = Flt.fin (2 ^ 1074) ∧ ratioWithin (2 ^ 1074) [2 ^ 1074, 2 ^ 1021] 999 1000 1000 = true := by
  decide +kernel

/-- Negative numbers may cancel: what is left can be wrong altogether, but the bound speaks of the sum of the absolute values. -/
example : sum pf64 (.flt .float64) ([2 ^ 1074, 2 ^ 1020, - 2 ^ 1074].map Flt.fin) = Flt.fin 0 := by decide +kernel

/-- A defined integer type: the sum of 2^53, 1 and 1 is off by 2. -/
example : sum pf64 { kind := .int .int64, defined := true } ([2 ^ 53, 1, 1] : List Int) = (2 ^ 53 : Int) := by decide +kernel

end Stl4go
