import Verif.Proofs.NumericFloat
import Verif.Proofs.TransformFill
/-! # Lemmas about `Range` and `Generate` -/
namespace Stl4go
variable {T σ : Type} {pf : Platform}

/-! ## Generate -/

theorem draws_length (gen : σ → σ × T) (n : Nat) : ∀ t, (draws gen t n).2.length = n := by
  induction n with
  | zero => intro t; rfl
  | succ n ih => intro t; simp [draws, ih]

theorem generateLoop_eq (a : Sl) (gen : σ → σ × T) (m : Mem T) (suf : List T) : ∀ (pre : List T) (t : σ), a.len = (pre ++ suf).length →
    generateLoop a gen suf.length pre.length t (m.write a.off (pre ++ suf)) =
      .ok (draws gen t suf.length).1 (m.write a.off (pre ++ (draws gen t suf.length).2)) := by
  induction suf with
  | nil => intro pre t _; rfl
  | cons x suf ih =>
    intro pre t hl
    simp only [List.length_cons, generateLoop, GoM.bind_def, Sl.put_mid a m pre suf x _ hl]
    have := ih (pre ++ [(gen t).2]) (gen t).1 (by simp at hl ⊢; omega)
    simp at this
    simp [this, draws]

theorem generate_eq (a : Sl) (gen : σ → σ × T) (t : σ) (m : Mem T) :
    generate a gen t m = .ok (draws gen t a.len).1 (m.write a.off (draws gen t a.len).2) := by
  have := generateLoop_eq a gen m (a.read m) [] t (by simp)
  simp only [Sl.read_length, List.length_nil, List.nil_append, Sl.write_read] at this
  exact this

/-! ## Range -/

/-- The values the loop of `Range` goes through from `v` until it stops. -/
inductive Climb (pf : Platform) (k : NKind) (last : k.Val) : k.Val → List k.Val → Prop where
  | stop {v : k.Val} (h : k.lt v last = false) : Climb pf k last v []
  | step {v : k.Val} {vs : List k.Val} (h : k.lt v last = true) (t : Climb pf k last (k.add pf v k.one) vs) : Climb pf k last v (v :: vs)

theorem rangeLoop_climb (grow : Nat → Nat → Nat) (k : NKind) {last v : k.Val} {vs : List k.Val} (h : Climb pf k last v vs) :
    ∀ {m0 m : Mem k.Val} {a : Sl} (fuel : Nat), vs.length < fuel → Fresh m0 m a →
    ∃ r m', rangeLoop pf grow k last fuel v a m = .ok r m' ∧ Fresh m0 m' r ∧ r.read m' = a.read m ++ vs := by
  induction h with
  | stop h =>
    intro m0 m a fuel hf hF
    obtain ⟨f, rfl⟩ : ∃ f, fuel = f + 1 := ⟨fuel - 1, by omega⟩
    exact ⟨a, m, by simp [rangeLoop, h], hF, by simp⟩
  | @step v vs h t ih =>
    intro m0 m a fuel hf hF
    obtain ⟨f, rfl⟩ : ∃ f, fuel = f + 1 := ⟨fuel - 1, by omega⟩
    obtain ⟨a', m1, e, hF', hr, _⟩ := hF.append grow [v]
    obtain ⟨r, m', e2, hF2, hr2⟩ := ih f (by simp at hf; omega) hF'
    refine ⟨r, m', ?_, hF2, by rw [hr2, hr]; simp⟩
    simp only [rangeLoop, if_pos h, GoM.bind_def, e]
    exact e2

/-- If one is absorbed the loop never ends. -/
theorem rangeLoop_stuck (grow : Nat → Nat → Nat) (k : NKind) {last v : k.Val} (h : k.lt v last = true) (hs : k.add pf v k.one = v) (fuel : Nat) :
    ∀ (a : Sl) (m : Mem k.Val), a.WF m → rangeLoop pf grow k last fuel v a m = .diverge := by
  induction fuel with
  | zero => intro a m _; rfl
  | succ f ih =>
    intro a m hw
    obtain ⟨a', m', e, g, _⟩ := Sl.append_spec grow a [v] m hw
    simp only [rangeLoop, if_pos h, GoM.bind_def, e, hs]
    exact ih a' m' g.wf

/-- The capacity `Range` asks for. -/
def rangeCap (pf : Platform) (k : NKind) (first last : k.Val) : Int := k.conv pf (.int .int) (k.sub pf last first)

theorem range_climb (grow : Nat → Nat → Nat) (k : NKind) {first last : k.Val} {vs : List k.Val} (h : Climb pf k last first vs)
    (hc : 0 ≤ rangeCap pf k first last) (fuel : Nat) (hf : vs.length < fuel) (m : Mem k.Val) :
    ∃ r m', range pf grow fuel k first last m = .ok r m' ∧ Fresh m m' r ∧ r.read m' = vs := by
  obtain ⟨c, hc'⟩ : ∃ c : Nat, rangeCap pf k first last = c := ⟨_, (Int.toNat_of_nonneg hc).symm⟩
  have e := Sl.make_ok (T := k.Val) 0 c (by omega) m
  obtain ⟨r, m', e2, hF, hr⟩ := rangeLoop_climb grow k h fuel hf (Fresh.make m 0 c (by omega))
  refine ⟨r, m', ?_, hF, by rw [hr]; simp [Sl.read]⟩
  unfold rangeCap at hc'
  simp only [range, GoM.bind_def, hc']
  simp only [Int.natCast_zero] at e
  rw [e]
  exact e2

theorem range_panic (grow : Nat → Nat → Nat) (k : NKind) {first last : k.Val} (hc : rangeCap pf k first last < 0) (fuel : Nat) (m : Mem k.Val) :
    range pf grow fuel k first last m = .panic m := by
  have : Sl.make (T := k.Val) 0 (rangeCap pf k first last) m = .panic m := by unfold Sl.make; rw [if_neg (by omega)]
  unfold rangeCap at this
  simp only [range, GoM.bind_def, this]

theorem range_stuck (grow : Nat → Nat → Nat) (k : NKind) {first last : k.Val} (h : k.lt first last = true) (hs : k.add pf first k.one = first)
    (hc : 0 ≤ rangeCap pf k first last) (fuel : Nat) (m : Mem k.Val) : range pf grow fuel k first last m = .diverge := by
  obtain ⟨c, hc'⟩ : ∃ c : Nat, rangeCap pf k first last = c := ⟨_, (Int.toNat_of_nonneg hc).symm⟩
  have e := Sl.make_ok (T := k.Val) 0 c (by omega) m
  unfold rangeCap at hc'
  simp only [range, GoM.bind_def, hc']
  simp only [Int.natCast_zero] at e
  rw [e]
  exact rangeLoop_stuck grow k h hs fuel _ _ (Fresh.make m 0 c (by omega)).wf

theorem upFrom_succ (first : Int) (n : Nat) : upFrom first (n + 1) = first :: upFrom (first + 1) n := by
  unfold upFrom
  rw [List.range_succ_eq_map]
  simp only [List.map_cons, List.map_map]
  congr 1
  · simp
  · apply List.map_congr_left
    intro k _
    simp only [Function.comp_apply]
    omega

/-- Integers: from `first` to `last - 1`. -/
theorem climb_int (hw : pf.w = 32 ∨ pf.w = 64) (g : GoInt) {last : Int} (hl : g.Holds pf.w last) (n : Nat) : ∀ {first : Int}, g.Holds pf.w first →
    first + n = last → Climb pf (.int g) last first (upFrom first n) := by
  induction n with
  | zero =>
    intro first _ h
    exact .stop (by simp [NKind.lt]; omega)
  | succ n ih =>
    intro first hf h
    rw [upFrom_succ]
    refine .step (by simp [NKind.lt]; omega) ?_
    have h1 : g.Holds pf.w (first + 1) := by unfold GoInt.Holds at *; omega
    have e : NKind.add pf (.int g) first (NKind.one (.int g)) = first + 1 := g.wrap_of_holds hw h1
    rw [e]
    exact ih h1 (by omega)

theorem climb_int_none (g : GoInt) {first last : Int} (h : last ≤ first) : Climb pf (.int g) last first [] :=
  .stop (by simp [NKind.lt]; omega)

/-- Floats that are integers up to 2^prec. -/
theorem climb_float_int (g : GoFloat) {last : Int} (hl : last.natAbs ≤ 2 ^ g.prec) (n : Nat) : ∀ {first : Int}, first.natAbs ≤ 2 ^ g.prec →
    first + n = last → Climb pf (.flt g) (Flt.ofInt last) (Flt.ofInt first) ((upFrom first n).map Flt.ofInt) := by
  have lt_iff : ∀ a b : Int, (NKind.flt g).lt (Flt.ofInt a) (Flt.ofInt b) = decide (a < b) := by
    intro a b
    simp only [NKind.lt, Flt.ofInt, Flt.lt]
    have hp := Flt.one_pos
    by_cases h : a < b
    · simp [h, Int.mul_lt_mul_of_pos_right h hp]
    · have := Int.mul_le_mul_of_nonneg_right (by omega : b ≤ a) (Int.le_of_lt hp)
      simp [h]; omega
  induction n with
  | zero =>
    intro first _ h
    exact .stop (by rw [lt_iff]; simp; omega)
  | succ n ih =>
    intro first hf h
    rw [upFrom_succ, List.map_cons]
    refine .step (by rw [lt_iff]; simp; omega) ?_
    have e : NKind.add pf (.flt g) (Flt.ofInt first) (NKind.one (.flt g)) = Flt.ofInt (first + 1) := by
      have := GoFloat.add_int g first 1 (by omega)
      simpa [NKind.add, NKind.one, Flt.ofInt] using this
    rw [e]
    exact ih (by omega) (by omega)

/-- All floats up to 2^prec: every step passes at least one integer, so the loop stops. -/
theorem climb_float (g : GoFloat) {last : Int} (hl : last ≤ 2 ^ g.prec * Flt.one) (n : Nat) : ∀ (j v : Int), j * Flt.one ≤ v →
    - 2 ^ g.prec ≤ j → v ≤ 2 ^ (g.prec + 1) * Flt.one → 2 ^ g.prec ≤ j + n → ∃ vs, Climb pf (.flt g) (.fin last) (.fin v) vs := by
  have hp := Flt.one_pos
  have h2 := two_pow_pos g.prec
  have hd : (2 : Int) ^ (g.prec + 1) = 2 * 2 ^ g.prec := by rw [Int.pow_succ, Int.mul_comm]
  have habs : ∀ i : Int, - 2 ^ g.prec ≤ i → i ≤ 2 ^ g.prec → i.natAbs ≤ 2 ^ g.prec := by
    intro i h1 h3
    have : ((2 ^ g.prec : Nat) : Int) = (2 : Int) ^ g.prec := by simp
    omega
  have hone : (1 : Int) ≤ 2 ^ g.prec := by omega
  induction n with
  | zero =>
    intro j v hj hlo _ hn
    refine ⟨[], .stop ?_⟩
    have := Int.mul_le_mul_of_nonneg_right (by omega : (2 : Int) ^ g.prec ≤ j) (Int.le_of_lt hp)
    simp [NKind.lt, Flt.lt]; omega
  | succ n ih =>
    intro j v hj hlo hv hn
    by_cases hlt : v < last
    · -- j < 2^prec
      have hj2 : j < 2 ^ g.prec := by
        apply Decidable.byContradiction
        intro hc
        have := Int.mul_le_mul_of_nonneg_right (by omega : (2 : Int) ^ g.prec ≤ j) (Int.le_of_lt hp)
        omega
      have hz : (j + 1) * Flt.one ≤ v + Flt.one := by rw [Int.add_mul, Int.one_mul]; omega
      have hub : v + Flt.one ≤ (2 ^ g.prec + 1) * Flt.one := by rw [Int.add_mul, Int.one_mul]; omega
      have hub2 : (2 ^ g.prec + 1) * (Flt.one : Int) ≤ 2 ^ (g.prec + 1) * Flt.one := Int.mul_le_mul_of_nonneg_right (by omega) (Int.le_of_lt hp)
      have hlb : (- 2 ^ g.prec) * (Flt.one : Int) ≤ j * Flt.one := Int.mul_le_mul_of_nonneg_right hlo (Int.le_of_lt hp)
      rw [Int.neg_mul] at hlb
      have hub3 : (2 ^ g.prec) * (Flt.one : Int) ≤ 2 ^ (g.prec + 1) * Flt.one := Int.mul_le_mul_of_nonneg_right (by omega) (Int.le_of_lt hp)
      have hcast : ((2 ^ (g.prec + 1) * Flt.one : Nat) : Int) = 2 ^ (g.prec + 1) * (Flt.one : Int) := by simp
      have hb : (v + (Flt.one : Int)).natAbs ≤ 2 ^ (g.prec + 1) * Flt.one := by omega
      obtain ⟨y, ey, hy⟩ := g.ofUnits_ge (j + 1) (v + Flt.one) (habs _ (by omega) (by omega)) hz hb
      have e : NKind.add pf (.flt g) (.fin v) (NKind.one (.flt g)) = .fin y := ey
      have hyub : y ≤ 2 ^ (g.prec + 1) * Flt.one := by
        have e1 := g.ofUnits_eq (v + Flt.one) (g.round_lt_limit _ hb)
        rw [e1] at ey
        cases ey
        have := g.rnd_mono (Int.le_trans hub hub2)
        have e2 : g.rnd (2 ^ (g.prec + 1) * Flt.one) = 2 ^ (g.prec + 1) * Flt.one := by
          have hna : ((2 : Int) ^ (g.prec + 1) * Flt.one).natAbs = 2 ^ (g.prec + 1 + Flt.exp) := by
            rw [← hcast, Int.natAbs_natCast, Nat.pow_add _ _ Flt.exp, Flt.one]
          have hs := g.sub_le
          unfold GoFloat.rnd
          rw [hna, roundFrac_two_pow _ _ _ g.prec_pos (by omega), if_neg (by omega), ← hcast, Nat.pow_add _ _ Flt.exp, Flt.one]
        rwa [e2] at this
      obtain ⟨vs, hvs⟩ := ih (j + 1) y hy (by omega) hyub (by simp at hn; omega)
      exact ⟨.fin v :: vs, .step (by simp [NKind.lt, Flt.lt, hlt]) (by rw [e]; exact hvs)⟩
    · exact ⟨[], .stop (by simp [NKind.lt, Flt.lt]; omega)⟩

/-- From 2^(prec+1) on, adding one to a float changes nothing. -/
theorem float_absorbs (g : GoFloat) (z : Nat) (hz : 2 ^ (g.prec + 1) * Flt.one ≤ z) (hr : 2 ^ ulpExp g.prec g.sub z ∣ z) (hl : z < g.limit) :
    g.add (.fin z) (.fin Flt.one) = .fin z := by
  have hz2 : 2 ^ (g.prec + 1 + Flt.exp) ≤ z := by rw [Nat.pow_add]; exact hz
  have h0 : z ≠ 0 := by have := Nat.two_pow_pos (g.prec + 1 + Flt.exp); omega
  have hlog : g.prec + 1 + Flt.exp ≤ Nat.log2 z := (Nat.le_log2 h0).2 hz2
  have hsub := g.sub_le
  have hpp := g.prec_pos
  have he : ulpExp g.prec g.sub z = Nat.log2 z + 1 - g.prec := by
    unfold ulpExp
    show max _ _ = _
    omega
  generalize hE : Nat.log2 z + 1 - g.prec = e at he
  rw [he] at hr
  obtain ⟨q, hq⟩ := hr
  have hone : 4 * Flt.one ≤ 2 ^ e := by
    have : 4 * Flt.one = 2 ^ (2 + Flt.exp) := by rw [Nat.pow_add, Flt.one]
    rw [this]
    exact Nat.pow_le_pow_right (by decide) (by omega)
  -- the next power of two is still out of reach
  have hlt : z < 2 ^ (Nat.log2 z + 1) := Nat.lt_log2_self
  have hfac : 2 ^ (Nat.log2 z + 1) = 2 ^ e * 2 ^ (Nat.log2 z + 1 - e) := by rw [← Nat.pow_add]; congr 1; omega
  have hnext : z + 2 ^ e ≤ 2 ^ (Nat.log2 z + 1) := by
    rw [hfac] at hlt ⊢
    have : q < 2 ^ (Nat.log2 z + 1 - e) := Nat.lt_of_mul_lt_mul_left (a := 2 ^ e) (by rw [← hq]; exact hlt)
    have := Nat.mul_le_mul_left (2 ^ e) (by omega : q + 1 ≤ 2 ^ (Nat.log2 z + 1 - e))
    rw [Nat.mul_add, Nat.mul_one, ← hq] at this
    exact this
  have hone0 : 0 < Flt.one := Nat.two_pow_pos _
  have hlog2 : Nat.log2 (z + Flt.one) = Nat.log2 z := by
    apply Nat.le_antisymm
    · have : Nat.log2 (z + Flt.one) < Nat.log2 z + 1 := log2_lt_of_lt (by omega) (by omega)
      omega
    · rw [Nat.le_log2 (by omega)]
      exact Nat.le_trans (Nat.log2_self_le h0) (by omega)
  have he2 : ulpExp g.prec g.sub (z + Flt.one) = e := by
    unfold ulpExp
    rw [hlog2, hE]
    show max _ _ = _
    omega
  have hround : roundFrac g.prec g.sub (z + Flt.one) 1 = z := by
    rw [roundFrac_one, he2]
    have hm : (z + Flt.one) % 2 ^ e = Flt.one := by
      rw [hq, Nat.mul_add_mod]
      exact Nat.mod_eq_of_lt (by omega)
    have hdv : (z + Flt.one) / 2 ^ e = q := by
      rw [hq, Nat.mul_add_div (Nat.two_pow_pos e), Nat.div_eq_of_lt (by omega)]
      rfl
    unfold roundDiv
    rw [hm, if_pos (by omega), hdv, Nat.mul_comm, ← hq]
  show g.ofUnits ((z : Int) + (Flt.one : Int)) = _
  have hna : ((z : Int) + (Flt.one : Int)).natAbs = z + Flt.one := by omega
  rw [g.ofUnits_eq _ (by rw [hna, hround]; exact hl)]
  unfold GoFloat.rnd
  rw [hna, hround, if_neg (by omega)]

end Stl4go
