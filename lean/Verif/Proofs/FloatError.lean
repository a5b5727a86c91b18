import Mathlib.Tactic.Ring
import Mathlib.Tactic.Linarith
import Mathlib.Tactic.Positivity
import Mathlib.Tactic.NormNum
import Mathlib.Tactic.GCongr
import Mathlib.Algebra.Order.Ring.Pow
import Verif.Spec.FloatError
import Verif.Proofs.NumericRound
/-!
# Helper lemmas for C155 and C156
-/
namespace Stl4go
variable {pf : Platform}

/-! ## One rounding -/

theorem roundDiv_half (a q : Nat) (hq : 0 < q) : 2 * ((roundDiv a q * q : Nat) - (a : Int)).natAbs ≤ q := by
  have h1 := Nat.div_add_mod a q
  have h2 := Nat.mod_lt a hq
  rw [Nat.mul_comm] at h1
  have h4 : (a / q + 1) * q = a / q * q + q := by rw [Nat.add_mul, Nat.one_mul]
  have h5 : roundDiv a q * q = a / q * q ∧ 2 * (a % q) ≤ q ∨ roundDiv a q * q = a / q * q + q ∧ q ≤ 2 * (a % q) := by
    unfold roundDiv
    split
    · exact Or.inl ⟨rfl, by omega⟩
    · split
      · exact Or.inr ⟨h4, by omega⟩
      · split
        · exact Or.inl ⟨rfl, by omega⟩
        · exact Or.inr ⟨h4, by omega⟩
  omega

theorem roundFrac_off (n : Nat) : ((roundFrac 53 0 n 1 : Nat) - (n : Int)).natAbs * 2 ^ 53 ≤ n := by
  by_cases hn : Nat.log2 n + 1 ≤ 53
  · have he : ulpExp 53 0 n = 0 := by
      unfold ulpExp
      show max _ _ = _
      omega
    rw [roundFrac_exact 53 0 n (by rw [he]; exact Nat.one_dvd n)]
    simp
  · have he : ulpExp 53 0 n = Nat.log2 n + 1 - 53 := by
      unfold ulpExp
      show max _ _ = _
      omega
    rw [roundFrac_one, he]
    generalize hE : Nat.log2 n + 1 - 53 = E
    have h1 := roundDiv_half n (2 ^ E) (Nat.two_pow_pos E)
    have h2 : 2 ^ (E + 52) ≤ n := by
      have : E + 52 = Nat.log2 n := by omega
      rw [this]
      exact Nat.log2_self_le (by intro h; subst h; simp [Nat.log2_zero] at hn)
    have h3 : ((roundDiv n (2 ^ E) * 2 ^ E : Nat) - (n : Int)).natAbs * 2 ^ 53
        = 2 * ((roundDiv n (2 ^ E) * 2 ^ E : Nat) - (n : Int)).natAbs * 2 ^ 52 := by ring
    rw [h3]
    refine Nat.le_trans (Nat.mul_le_mul_right _ h1) ?_
    rw [← Nat.pow_add]
    exact h2

theorem rnd_natAbs (g : GoFloat) (z : Int) : (g.rnd z).natAbs = roundFrac g.prec g.sub z.natAbs 1 := by
  unfold GoFloat.rnd
  split <;> omega

theorem rnd_off (z : Int) : |((GoFloat.float64.rnd z : Int) : ℚ) - z| ≤ roundoff * |(z : ℚ)| := by
  have h := roundFrac_off z.natAbs
  have h2 : (GoFloat.float64.rnd z - z).natAbs = ((roundFrac 53 0 z.natAbs 1 : Nat) - (z.natAbs : Int)).natAbs := by
    have e : GoFloat.float64.rnd z = if z < 0 then - (roundFrac 53 0 z.natAbs 1 : Int) else roundFrac 53 0 z.natAbs 1 := rfl
    rw [e]
    generalize roundFrac 53 0 z.natAbs 1 = q
    split <;> omega
  rw [← h2] at h
  have h3 : ((GoFloat.float64.rnd z - z).natAbs : ℚ) * 2 ^ 53 ≤ (z.natAbs : ℚ) := by exact_mod_cast h
  rw [Nat.cast_natAbs, Nat.cast_natAbs] at h3
  push_cast at h3
  unfold roundoff
  linarith

theorem rnd_abs_le (z : Int) : |((GoFloat.float64.rnd z : Int) : ℚ)| ≤ (1 + roundoff) * |(z : ℚ)| := by
  have h := rnd_off z
  have h2 := abs_sub_abs_le_abs_sub ((GoFloat.float64.rnd z : Int) : ℚ) (z : ℚ)
  linarith

theorem roundoff_pos : (0 : ℚ) < roundoff := by unfold roundoff; positivity

/-! ## Representable numbers -/

theorem GoFloat.Rep.to64 {g : GoFloat} {z : Int} (h : g.Rep z) : GoFloat.float64.Rep z := by
  obtain ⟨hl, m, e, h1, h2, h3⟩ := h
  cases g with
  | float64 => exact ⟨hl, m, e, h1, h2, h3⟩
  | float32 =>
    refine ⟨Nat.lt_of_lt_of_le hl (Nat.pow_le_pow_right (by decide) (by omega)), m, e, h1, ?_, Nat.zero_le _⟩
    exact Nat.lt_of_lt_of_le h2 (Nat.pow_le_pow_right (by decide) (by decide))

theorem rnd_rep {g : GoFloat} {z : Int} (h : roundFrac g.prec g.sub z.natAbs 1 < g.limit) : g.Rep (g.rnd z) := by
  obtain ⟨m, e, h1, h2, h3⟩ := roundFrac_rep g.prec g.sub z.natAbs 1 g.prec_pos
  exact ⟨by rw [rnd_natAbs]; exact h, m, e, by rw [rnd_natAbs]; exact h1, h2, h3⟩

theorem ofUnits_inf (g : GoFloat) (z : Int) (h : ¬ roundFrac g.prec g.sub z.natAbs 1 < g.limit) : g.ofUnits z = .inf (decide (z < 0)) := by
  unfold GoFloat.ofUnits GoFloat.round
  rw [if_neg h]

theorem GoFloat.Rep.rnd_eq {g : GoFloat} {z : Int} (h : g.Rep z) : g.rnd z = z := by
  obtain ⟨hl, m, e, h1, h2, h3⟩ := h
  have hn := roundFrac_nearest g.prec g.sub z.natAbs 1 g.prec_pos (by decide) m e h2 h3
  rw [← h1] at hn
  have hr : roundFrac g.prec g.sub z.natAbs 1 = z.natAbs := by omega
  unfold GoFloat.rnd
  rw [hr]
  split <;> omega

/-! ## Adding up in float64 -/

/-- The running total of finite floats. -/
def accum : List Int → Flt → Flt
  | [], t => t
  | w :: ws, t => accum ws (GoFloat.float64.add t (.fin w))

theorem accum_stuck : ∀ (ws : List Int) (t : Flt), (∀ z, t ≠ .fin z) → ∀ z, accum ws t ≠ .fin z
  | [], _, h => h
  | w :: ws, t, h => by
    refine accum_stuck ws _ ?_
    intro z
    cases t with
    | fin x => exact absurd rfl (h x)
    | inf s => exact fun h => nomatch h
    | nan => exact fun h => nomatch h

theorem sumLoop_accum (elem : NKind) (f : elem.Val → Int) : ∀ (a : List elem.Val) (t : Flt),
    (∀ v ∈ a, NKind.conv pf elem (.flt .float64) v = Flt.fin (f v)) →
    sumLoop pf (.flt .float64) elem a t = accum (a.map f) t
  | [], _, _ => rfl
  | v :: a, t, h => by
    rw [sumLoop, h v List.mem_cons_self, List.map_cons, accum]
    exact sumLoop_accum elem f a _ (fun x hx => h x (List.mem_cons_of_mem _ hx))

theorem absSum_cons (w : Int) (ws : List Int) : absSum (w :: ws) = |(w : ℚ)| + absSum ws := rfl
theorem absSum_nonneg : ∀ ws : List Int, 0 ≤ absSum ws
  | [] => le_refl _
  | w :: ws => by rw [absSum_cons]; have := absSum_nonneg ws; positivity

theorem gamma_one (m : Nat) : 1 ≤ (1 + roundoff) ^ m := one_le_pow₀ (by have := roundoff_pos; linarith)

/-- The invariant of the loop: the total is a float and is off by what `m` roundings do at most. -/
structure Near (t : Int) (S A : ℚ) (m : Nat) : Prop where
  rep : GoFloat.float64.Rep t
  abs : |S| ≤ A
  off : |(t : ℚ) - S| ≤ ((1 + roundoff) ^ m - 1) * A

theorem Near.step_le {t : Int} {S A : ℚ} {m : Nat} (h : Near t S A m) (w : Int) :
    |((t + w : Int) : ℚ)| ≤ (1 + roundoff) ^ m * (A + |(w : ℚ)|) := by
  have h1 : |((t + w : Int) : ℚ)| ≤ |(t : ℚ) - S| + (|S| + |(w : ℚ)|) := by
    push_cast
    have : (t : ℚ) + w = (t - S) + (S + w) := by ring
    rw [this]
    exact (abs_add_le _ _).trans (by have := abs_add_le S (w : ℚ); linarith)
  have h2 := h.off
  have h3 := h.abs
  have h4 : 0 ≤ ((1 + roundoff) ^ m - 1) * |(w : ℚ)| := mul_nonneg (by have := gamma_one m; linarith) (abs_nonneg _)
  nlinarith

theorem Near.step {t : Int} {S A : ℚ} {m : Nat} (h : Near t S A m) (w : Int)
    (hl : roundFrac 53 0 (t + w).natAbs 1 < GoFloat.float64.limit) :
    Near (GoFloat.float64.rnd (t + w)) (S + w) (A + |(w : ℚ)|) (m + 1) := by
  refine ⟨rnd_rep hl, (abs_add_le _ _).trans (by have := h.abs; linarith), ?_⟩
  have h1 := rnd_off (t + w)
  have h2 := h.step_le w
  have h3 : |((GoFloat.float64.rnd (t + w) : Int) : ℚ) - (S + w)| ≤
      |((GoFloat.float64.rnd (t + w) : Int) : ℚ) - ((t + w : Int) : ℚ)| + |(t : ℚ) - S| := by
    have : ((GoFloat.float64.rnd (t + w) : Int) : ℚ) - (S + w) =
        (((GoFloat.float64.rnd (t + w) : Int) : ℚ) - ((t + w : Int) : ℚ)) + (t - S) := by push_cast; ring
    rw [this]
    exact abs_add_le _ _
  have h4 := h.off
  have h5 : roundoff * |((t + w : Int) : ℚ)| ≤ roundoff * ((1 + roundoff) ^ m * (A + |(w : ℚ)|)) :=
    mul_le_mul_of_nonneg_left h2 roundoff_pos.le
  have h6 : ((1 + roundoff) ^ m - 1) * A ≤ ((1 + roundoff) ^ m - 1) * (A + |(w : ℚ)|) :=
    mul_le_mul_of_nonneg_left (by have := abs_nonneg (w : ℚ); linarith) (by have := gamma_one m; linarith)
  have h7 : ((1 + roundoff) ^ (m + 1) - 1) * (A + |(w : ℚ)|) =
      roundoff * ((1 + roundoff) ^ m * (A + |(w : ℚ)|)) + ((1 + roundoff) ^ m - 1) * (A + |(w : ℚ)|) := by ring
  linarith

/-- Adding up ends with a total that is off by what the roundings do at most, or with an overflow, and then the numbers are large. -/
theorem accum_near : ∀ (ws : List Int) (t : Int) (S A : ℚ) (m : Nat), Near t S A m →
    (∃ r, accum ws (.fin t) = .fin r ∧ Near r (S + (ws.sum : Int)) (A + absSum ws) (m + ws.length)) ∨
    ((∀ z, accum ws (.fin t) ≠ .fin z) ∧ (GoFloat.float64.limit : ℚ) ≤ (1 + roundoff) ^ (m + ws.length) * (A + absSum ws))
  | [], t, S, A, m, h => by
    refine Or.inl ⟨t, rfl, ?_⟩
    simpa [absSum] using h
  | w :: ws, t, S, A, m, h => by
    rw [accum]
    show (∃ r, accum ws (GoFloat.float64.ofUnits (t + w)) = _ ∧ _) ∨ (∀ z, accum ws (GoFloat.float64.ofUnits (t + w)) ≠ _) ∧ _
    by_cases hl : roundFrac 53 0 (t + w).natAbs 1 < GoFloat.float64.limit
    · rw [GoFloat.ofUnits_eq .float64 (t + w) hl]
      have h1 := accum_near ws _ _ _ _ (h.step w hl)
      have e1 : S + (w : ℚ) + (ws.sum : Int) = S + (((w :: ws).sum : Int) : ℚ) := by push_cast [List.sum_cons]; ring
      have e2 : A + |(w : ℚ)| + absSum ws = A + absSum (w :: ws) := by rw [absSum_cons]; ring
      have e3 : m + 1 + ws.length = m + (w :: ws).length := by rw [List.length_cons]; omega
      rw [e1, e2, e3] at h1
      exact h1
    · refine Or.inr ⟨?_, ?_⟩
      · rw [ofUnits_inf .float64 (t + w) hl]
        exact accum_stuck ws _ (fun z h => nomatch h)
      · have h1 : (GoFloat.float64.limit : ℚ) ≤ |((GoFloat.float64.rnd (t + w) : Int) : ℚ)| := by
          have h2 : GoFloat.float64.limit ≤ (GoFloat.float64.rnd (t + w)).natAbs := by
            rw [rnd_natAbs]
            exact Nat.le_of_not_lt hl
          have h3 : (GoFloat.float64.limit : ℚ) ≤ ((GoFloat.float64.rnd (t + w)).natAbs : ℚ) := by exact_mod_cast h2
          rw [Nat.cast_natAbs] at h3
          push_cast at h3
          exact h3
        have h2 := rnd_abs_le (t + w)
        have h3 := h.step_le w
        have h4 : (1 + roundoff) * |((t + w : Int) : ℚ)| ≤ (1 + roundoff) ^ (m + 1) * (A + |(w : ℚ)|) := by
          have := mul_le_mul_of_nonneg_left h3 (a := 1 + roundoff) (by have := roundoff_pos; linarith)
          rw [pow_succ]
          linarith
        have hA : 0 ≤ A := (abs_nonneg S).trans h.abs
        have h5 : (1 + roundoff) ^ (m + 1) ≤ (1 + roundoff) ^ (m + (w :: ws).length) :=
          pow_le_pow_right₀ (by have := roundoff_pos; linarith) (by rw [List.length_cons]; omega)
        have h6 : A + |(w : ℚ)| ≤ A + absSum (w :: ws) := by rw [absSum_cons]; have := absSum_nonneg ws; linarith
        have h7 : (1 + roundoff) ^ (m + 1) * (A + |(w : ℚ)|) ≤ (1 + roundoff) ^ (m + (w :: ws).length) * (A + absSum (w :: ws)) :=
          mul_le_mul h5 h6 (by have := abs_nonneg (w : ℚ); linarith) (by have := gamma_one (m + (w :: ws).length); linarith)
        linarith

/-! ## From zero -/

/-- The first addition is exact, so `n` floats take `n - 1` roundings. -/
theorem accum_zero (ws : List Int) (h : ∀ w ∈ ws, GoFloat.float64.Rep w) :
    (∃ r, accum ws (.fin 0) = .fin r ∧ GoFloat.float64.Rep r ∧ OffBy (ws.length - 1) ws r) ∨
    ((∀ z, accum ws (.fin 0) ≠ .fin z) ∧ (GoFloat.float64.limit : ℚ) ≤ (1 + roundoff) ^ (ws.length - 1) * absSum ws) := by
  cases ws with
  | nil => exact Or.inl ⟨0, rfl, ⟨by decide +kernel, 0, 0, by decide⟩, by simp [OffBy, absSum]⟩
  | cons w ws =>
    have hw := h w List.mem_cons_self
    have e : accum (w :: ws) (.fin 0) = accum ws (.fin w) := by
      show accum ws (GoFloat.float64.ofUnits (0 + w)) = _
      rw [Int.zero_add, hw.ofUnits]
    have hn : Near w (w : ℚ) |(w : ℚ)| 0 := ⟨hw, le_refl _, by simp⟩
    have e1 : (w : ℚ) + (ws.sum : Int) = (((w :: ws).sum : Int) : ℚ) := by push_cast [List.sum_cons]; ring
    have e2 : 0 + ws.length = (w :: ws).length - 1 := by rw [List.length_cons]; omega
    have h1 := accum_near ws w _ _ 0 hn
    rw [e1, ← absSum_cons, e2] at h1
    rw [e]
    rcases h1 with ⟨r, h1, h2⟩ | h1
    · exact Or.inl ⟨r, h1, h2.rep, h2.off⟩
    · exact Or.inr h1

theorem sumAs_flt (f g : GoFloat) (d e : Bool) (zs : List Int) (hz : ∀ z ∈ zs, g.Rep z) :
    sumAs pf { kind := .flt f, defined := e } { kind := .flt g, defined := d } (zs.map Flt.fin) =
      NKind.conv pf (.flt .float64) (.flt f) (accum zs (.fin 0)) := by
  have h1 : sumAcc { kind := .flt g, defined := d } = .flt .float64 := by cases d <;> rfl
  have h2 : sumLoop pf (.flt .float64) (.flt g) (zs.map Flt.fin) (.fin 0) = accum zs (.fin 0) := by
    let f : Flt → Int := fun x => match x with | .fin z => z | _ => 0
    have h3 := sumLoop_accum (pf := pf) (.flt g) f (zs.map Flt.fin) (.fin 0) (by
      intro v hv
      obtain ⟨z, hz1, rfl⟩ := List.mem_map.1 hv
      show GoFloat.float64.ofUnits z = .fin z
      exact (hz z hz1).to64.ofUnits)
    rw [h3, List.map_map]
    congr 1
    exact List.map_id _
  have h4 : ∀ k : NKind, k = .flt .float64 → NKind.conv pf k (.flt f) (sumLoop pf k (.flt g) (zs.map Flt.fin) k.zero) =
      NKind.conv pf (.flt .float64) (.flt f) (sumLoop pf (.flt .float64) (.flt g) (zs.map Flt.fin) (.fin 0)) := by
    rintro k rfl
    rfl
  unfold sumAs
  rw [h4 _ h1, h2]

theorem conv64_fin {x : Flt} {r : Int} {f : GoFloat} (h : NKind.conv pf (.flt .float64) (.flt f) x = Flt.fin r) : ∃ s, x = .fin s ∧ f.ofUnits s = .fin r := by
  cases x with
  | fin s => exact ⟨s, rfl, h⟩
  | inf s => exact nomatch h
  | nan => exact nomatch h

theorem abs_sum_le : ∀ zs : List Int, |((zs.sum : Int) : ℚ)| ≤ absSum zs
  | [] => by simp [absSum]
  | z :: zs => by
    rw [absSum_cons, List.sum_cons]
    push_cast
    have := abs_sum_le zs
    have := abs_add_le (z : ℚ) ((zs.sum : Int) : ℚ)
    linarith

theorem absSum_of_nonneg : ∀ zs : List Int, (∀ z ∈ zs, 0 ≤ z) → absSum zs = ((zs.sum : Int) : ℚ)
  | [], _ => by simp [absSum]
  | z :: zs, h => by
    rw [absSum_cons, absSum_of_nonneg zs (fun x hx => h x (List.mem_cons_of_mem _ hx)), List.sum_cons, Int.cast_add]
    have : (0 : ℚ) ≤ (z : ℚ) := by exact_mod_cast h z List.mem_cons_self
    rw [abs_of_nonneg this]

/-- What is added stays: totals of numbers that are not negative never go down. -/
theorem accum_ge : ∀ (ws : List Int) (t r : Int), (∀ w ∈ ws, 0 ≤ w) → (∀ w ∈ ws, GoFloat.float64.Rep w) → GoFloat.float64.Rep t → 0 ≤ t →
    accum ws (.fin t) = .fin r → t ≤ r ∧ ∀ w ∈ ws, w ≤ r
  | [], t, r, _, _, _, _, h => by
    cases h
    exact ⟨le_refl _, fun w hw => nomatch hw⟩
  | w :: ws, t, r, h0, hr, ht, h1, h => by
    have hw0 := h0 w List.mem_cons_self
    have hw := hr w List.mem_cons_self
    by_cases hl : roundFrac 53 0 (t + w).natAbs 1 < GoFloat.float64.limit
    · have e : GoFloat.float64.add (.fin t) (.fin w) = .fin (GoFloat.float64.rnd (t + w)) := GoFloat.ofUnits_eq .float64 (t + w) hl
      rw [accum, e] at h
      have m1 : t ≤ GoFloat.float64.rnd (t + w) := by
        have := GoFloat.float64.rnd_mono (show t ≤ t + w by omega)
        rwa [ht.rnd_eq] at this
      have m2 : w ≤ GoFloat.float64.rnd (t + w) := by
        have := GoFloat.float64.rnd_mono (show w ≤ t + w by omega)
        rwa [hw.rnd_eq] at this
      have ih := accum_ge ws _ r (fun x hx => h0 x (List.mem_cons_of_mem _ hx)) (fun x hx => hr x (List.mem_cons_of_mem _ hx)) (rnd_rep hl) (by omega) h
      refine ⟨by omega, fun x hx => ?_⟩
      rcases List.mem_cons.1 hx with rfl | hx
      · omega
      · exact ih.2 x hx
    · have e : GoFloat.float64.add (.fin t) (.fin w) = .inf (decide (t + w < 0)) := ofUnits_inf .float64 (t + w) hl
      rw [accum, e] at h
      exact absurd h (accum_stuck ws (.inf _) (fun z h => nomatch h) r)

/-! ## Integers as floats -/

theorem limit_big : (2 : Nat) ^ 65 * Flt.one < GoFloat.float64.limit := by decide +kernel

theorem int_limit (O L n : Nat) (h : n ≤ 2 ^ 64) (hL : 2 ^ 65 * O < L) : roundFrac 53 0 (n * O) 1 < L := by
  have h1 := roundFrac_off (n * O)
  have h3 : n * O ≤ 2 ^ 64 * O := Nat.mul_le_mul_right _ h
  generalize roundFrac 53 0 (n * O) 1 = q at *
  generalize n * O = k at *
  omega

theorem int_units (z : Int) (h : z.natAbs ≤ 2 ^ 64) : GoFloat.float64.ofUnits (z * Flt.one) = .fin (GoFloat.float64.rnd (z * Flt.one)) ∧
    GoFloat.float64.Rep (GoFloat.float64.rnd (z * Flt.one)) := by
  have hl : roundFrac 53 0 (z * Flt.one).natAbs 1 < GoFloat.float64.limit := by
    rw [Int.natAbs_mul, Int.natAbs_natCast]
    exact int_limit _ _ _ h limit_big
  exact ⟨GoFloat.ofUnits_eq .float64 _ hl, rnd_rep hl⟩

theorem absSum_rnd : ∀ zs : List Int,
    absSum (zs.map (fun z => GoFloat.float64.rnd (z * Flt.one))) ≤ (1 + roundoff) * (Flt.one * absSum zs) ∧
    |(((zs.map (fun z => GoFloat.float64.rnd (z * Flt.one))).sum : Int) : ℚ) - Flt.one * ((zs.sum : Int) : ℚ)| ≤ roundoff * (Flt.one * absSum zs)
  | [] => by simp [absSum]
  | z :: zs => by
    obtain ⟨h1, h2⟩ := absSum_rnd zs
    have h3 := rnd_off (z * Flt.one)
    have h4 := rnd_abs_le (z * Flt.one)
    have h5 : |((z * Flt.one : Int) : ℚ)| = Flt.one * |(z : ℚ)| := by
      rw [Int.cast_mul, Int.cast_natCast, abs_mul, Nat.abs_cast, mul_comm]
    rw [h5] at h3 h4
    constructor
    · rw [List.map_cons, absSum_cons, absSum_cons]
      linarith
    · rw [List.map_cons, List.sum_cons, List.sum_cons, absSum_cons]
      have h6 : ((GoFloat.float64.rnd (z * Flt.one) + (zs.map (fun z => GoFloat.float64.rnd (z * Flt.one))).sum : Int) : ℚ) -
          Flt.one * ((z + zs.sum : Int) : ℚ) = (((GoFloat.float64.rnd (z * Flt.one) : Int) : ℚ) - ((z * Flt.one : Int) : ℚ)) +
          ((((zs.map (fun z => GoFloat.float64.rnd (z * Flt.one))).sum : Int) : ℚ) - Flt.one * ((zs.sum : Int) : ℚ)) := by push_cast; ring
      rw [h6]
      have := abs_add_le (((GoFloat.float64.rnd (z * Flt.one) : Int) : ℚ) - ((z * Flt.one : Int) : ℚ))
        ((((zs.map (fun z => GoFloat.float64.rnd (z * Flt.one))).sum : Int) : ℚ) - Flt.one * ((zs.sum : Int) : ℚ))
      linarith

/-! ## Truncation -/

theorem tmod_small (q : Int) (O : Nat) (hO : 0 < O) : |Int.tmod q O| < (O : Int) := by
  have := Int.natAbs_tmod q O
  rw [Int.natAbs_natCast] at this
  have h4 := Nat.mod_lt q.natAbs hO
  rw [← this] at h4
  rw [Int.abs_eq_natAbs]
  exact_mod_cast h4

theorem tdiv_within (q M : Int) (O : Nat) (hO : 0 < O) (h : |q| ≤ M * O) : -M ≤ q.tdiv O ∧ q.tdiv O ≤ M := by
  have ht := Int.mul_tdiv_add_tmod q O
  have h1 := abs_lt.1 (tmod_small q O hO)
  have h2 := abs_le.1 h
  have hO' : (0 : Int) < O := by exact_mod_cast hO
  constructor
  · by_contra hc
    have h6 := mul_le_mul_of_nonneg_left (show q.tdiv O ≤ - M - 1 by omega) hO'.le
    nlinarith
  · by_contra hc
    have h6 := mul_le_mul_of_nonneg_left (show M + 1 ≤ q.tdiv O by omega) hO'.le
    nlinarith

theorem tdiv_off (q S : Int) (O : Nat) (hO : 0 < O) (B : ℚ) (h : |(q : ℚ) - O * (S : ℚ)| ≤ O * B) : |((q.tdiv O : Int) : ℚ) - S| < 1 + B := by
  have hO' : (0 : ℚ) < O := by exact_mod_cast hO
  have h4 : (O : ℚ) * ((q.tdiv O : Int) : ℚ) = (q : ℚ) - ((Int.tmod q O : Int) : ℚ) := by
    have : ((O * q.tdiv O + q.tmod O : Int) : ℚ) = (q : ℚ) := by rw [Int.mul_tdiv_add_tmod q O]
    push_cast at this
    linarith
  have h5 : |((Int.tmod q O : Int) : ℚ)| < O := by exact_mod_cast tmod_small q O hO
  have h6 : (O : ℚ) * |((q.tdiv O : Int) : ℚ) - S| < O * (1 + B) := by
    have h7 : (O : ℚ) * |((q.tdiv O : Int) : ℚ) - S| = |(q : ℚ) - O * (S : ℚ) - ((Int.tmod q O : Int) : ℚ)| := by
      have h8 : (q : ℚ) - O * (S : ℚ) - ((Int.tmod q O : Int) : ℚ) = O * (((q.tdiv O : Int) : ℚ) - S) := by rw [mul_sub, h4]; ring
      rw [h8, abs_mul, abs_of_pos hO']
    rw [h7]
    have := abs_sub ((q : ℚ) - O * (S : ℚ)) ((Int.tmod q O : Int) : ℚ)
    linarith
  exact lt_of_mul_lt_mul_left h6 hO'.le

/-! ## Division -/

theorem roundFrac_div_off (a b : Nat) (hb : 0 < b) :
    ((roundFrac 53 0 a b * b : Nat) - (a : Int)).natAbs * 2 ^ 53 ≤ a ∨ 2 * ((roundFrac 53 0 a b * b : Nat) - (a : Int)).natAbs ≤ b := by
  have hh := roundDiv_half a (b * 2 ^ ulpExp 53 0 (a / b)) (Nat.mul_pos hb (Nat.two_pow_pos _))
  have e1 : roundFrac 53 0 a b * b = roundDiv a (b * 2 ^ ulpExp 53 0 (a / b)) * (b * 2 ^ ulpExp 53 0 (a / b)) := by unfold roundFrac; ring
  rw [e1]
  generalize hr : roundDiv a (b * 2 ^ ulpExp 53 0 (a / b)) * (b * 2 ^ ulpExp 53 0 (a / b)) = x at hh ⊢
  by_cases hn : Nat.log2 (a / b) + 1 ≤ 53
  · have he : ulpExp 53 0 (a / b) = 0 := by
      unfold ulpExp
      show max _ _ = _
      omega
    rw [he] at hh
    exact Or.inr (by simpa using hh)
  · refine Or.inl ?_
    have he : ulpExp 53 0 (a / b) = Nat.log2 (a / b) + 1 - 53 := by
      unfold ulpExp
      show max _ _ = _
      omega
    rw [he] at hh
    generalize hE : Nat.log2 (a / b) + 1 - 53 = E at hh
    have h2 : 2 ^ (E + 52) ≤ a / b := by
      have : E + 52 = Nat.log2 (a / b) := by omega
      rw [this]
      exact Nat.log2_self_le (by intro h; rw [h] at hn; simp [Nat.log2_zero] at hn)
    have h3 : b * 2 ^ (E + 52) ≤ a := (Nat.mul_le_mul_left b h2).trans (Nat.mul_div_le a b)
    have h4 : ((x : Int) - (a : Int)).natAbs * 2 ^ 53 = 2 * ((x : Int) - (a : Int)).natAbs * 2 ^ 52 := by ring
    rw [h4]
    refine (Nat.mul_le_mul_right _ hh).trans ?_
    rw [Nat.mul_assoc, ← Nat.pow_add]
    exact h3

theorem div_off (q r : Int) (n : Nat) (hn : 0 < n) (h : GoFloat.float64.div (.fin q) (.fin ((n : Int) * Flt.one)) = .fin r) :
    |(r : ℚ) - q / n| ≤ roundoff * (|(q : ℚ)| / n) + 1 / 2 := by
  have hO : (0 : Int) < Flt.one := Flt.one_pos
  have hb : (n : Int) * Flt.one ≠ 0 := Int.mul_ne_zero (by omega) (by omega)
  have hnn : ¬ (n : Int) * Flt.one < 0 := by
    have : (0 : Int) ≤ n * Flt.one := Int.mul_nonneg (by omega) hO.le
    omega
  have hr : roundFrac 53 0 (q.natAbs * Flt.one) ((n : Int) * Flt.one).natAbs = roundFrac 53 0 q.natAbs n := by
    rw [Int.natAbs_mul, Int.natAbs_natCast, Int.natAbs_natCast]
    exact roundFrac_scale 53 0 q.natAbs n Flt.one (Nat.two_pow_pos _)
  have hr' : roundFrac GoFloat.float64.prec GoFloat.float64.sub (q.natAbs * Flt.one) ((n : Int) * Flt.one).natAbs = roundFrac 53 0 q.natAbs n := hr
  have h1 : r = if q < 0 then - (roundFrac 53 0 q.natAbs n : Int) else roundFrac 53 0 q.natAbs n := by
    simp only [GoFloat.div, if_neg hb, GoFloat.round, hr', decide_eq_false hnn, Bool.bne_false, decide_eq_true_eq] at h
    split at h
    · exact (Flt.fin.inj h).symm
    · exact nomatch h
  have h2 : (r * n - q).natAbs = ((roundFrac 53 0 q.natAbs n * n : Nat) - (q.natAbs : Int)).natAbs := by
    rw [h1]
    generalize roundFrac 53 0 q.natAbs n = x
    rw [Int.natCast_mul]
    split
    · rw [Int.neg_mul]
      generalize (x : Int) * n = y
      omega
    · generalize (x : Int) * n = y
      omega
  have hN : (0 : ℚ) < n := by exact_mod_cast hn
  have h3 := roundFrac_div_off q.natAbs n hn
  rw [← h2] at h3
  have h4 : |(r : ℚ) * n - q| ≤ roundoff * |(q : ℚ)| + n / 2 := by
    have e : |(r : ℚ) * n - q| = ((r * n - q).natAbs : ℚ) := by rw [Nat.cast_natAbs]; push_cast; rfl
    rw [e]
    have hq0 : 0 ≤ roundoff * |(q : ℚ)| := mul_nonneg roundoff_pos.le (abs_nonneg _)
    rcases h3 with h3 | h3
    · have h5 : ((r * n - q).natAbs : ℚ) * 2 ^ 53 ≤ (q.natAbs : ℚ) := by exact_mod_cast h3
      rw [Nat.cast_natAbs q] at h5
      push_cast at h5
      have h6 : roundoff * |(q : ℚ)| = |(q : ℚ)| / 2 ^ 53 := by unfold roundoff; ring
      have h7 : ((r * n - q).natAbs : ℚ) ≤ |(q : ℚ)| / 2 ^ 53 := by rw [le_div_iff₀ (by positivity)]; exact h5
      rw [h6]
      have : (0 : ℚ) ≤ n / 2 := by positivity
      linarith
    · have h5 : 2 * ((r * n - q).natAbs : ℚ) ≤ (n : ℚ) := by exact_mod_cast h3
      linarith
  have h5 : (r : ℚ) - q / n = (r * n - q) / n := by rw [sub_div, mul_div_assoc, div_self hN.ne', mul_one]
  rw [h5, abs_div, abs_of_pos hN, div_le_iff₀ hN]
  have h6 : (roundoff * (|(q : ℚ)| / n) + 1 / 2) * n = roundoff * |(q : ℚ)| + n / 2 := by
    rw [add_mul, mul_assoc, div_mul_cancel₀ _ hN.ne']
    ring
  rw [h6]
  exact h4

theorem div_rep {g : GoFloat} {x y : Flt} {r : Int} (h : g.div x y = .fin r) : g.Rep r := by
  have h0 : g.Rep 0 := ⟨by cases g <;> decide +kernel, 0, g.sub, by simp, Nat.two_pow_pos _, Nat.le_refl _⟩
  cases x with
  | fin a =>
    cases y with
    | fin b =>
      simp only [GoFloat.div] at h
      split at h
      · split at h <;> exact nomatch h
      · unfold GoFloat.round at h
        split at h
        · next hl =>
          obtain ⟨m, e, h1, h2, h3⟩ := roundFrac_rep g.prec g.sub (a.natAbs * Flt.one) b.natAbs g.prec_pos
          have h4 := Flt.fin.inj h
          have h5 : r.natAbs = roundFrac g.prec g.sub (a.natAbs * Flt.one) b.natAbs := by
            rw [← h4]
            generalize roundFrac g.prec g.sub (a.natAbs * Flt.one) b.natAbs = q
            split <;> omega
          exact ⟨by rw [h5]; exact hl, m, e, h5.trans h1, h2, h3⟩
        · exact nomatch h
    | inf s => cases h; exact h0
    | nan => exact nomatch h
  | inf s => cases y <;> exact nomatch h
  | nan => cases y <;> exact nomatch h

end Stl4go
