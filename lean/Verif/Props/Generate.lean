import Verif.Proofs.GenerateFloat
import Verif.Proofs.NumericSum
/-!
# Properties C59-C61, C85: `/repo/generate.go`

`pf` is any platform (32-bit or 64-bit words, any result of an out-of-range conversion), `grow` any growth policy of `append`,
`m` any memory. A call that needs more iterations than its fuel is `diverge`, so "for every large enough fuel" means that it terminates.
-/
namespace Stl4go
variable {T σ : Type} {pf : Platform}

/-- A 64-bit platform, for the examples. -/
def pf64 : Platform := { w := 64, oob := fun _ _ => 0 }

/-- A 32-bit platform, for the examples. -/
def pf32 : Platform := { w := 32, oob := fun _ _ => 0 }

/-- The call returns the values `vs` in storage of its own. -/
def RangeGives (pf : Platform) (k : NKind) (first last : k.Val) (vs : List k.Val) : Prop :=
  ∀ grow m, ∃ fuel0, ∀ fuel, fuel0 ≤ fuel → ∃ r m', range pf grow fuel k first last m = .ok r m' ∧ Fresh m m' r ∧ r.read m' = vs

/-- The call panics at once. -/
def RangePanics (pf : Platform) (k : NKind) (first last : k.Val) : Prop :=
  ∀ grow m fuel, range pf grow fuel k first last m = .panic m

theorem Climb.gives {k : NKind} {first last : k.Val} {vs : List k.Val} (h : Climb pf k last first vs) (hc : 0 ≤ rangeCap pf k first last) :
    RangeGives pf k first last vs :=
  fun grow m => ⟨vs.length + 1, fun fuel hf => range_climb grow k h hc fuel (by omega) m⟩

/-! ## C59 -/

/-- C59 as stated. -/
def C59_statement : Prop :=
  ∀ (pf : Platform), pf.Real → ∀ (g : GoInt) (first last : Int), g.Holds pf.w first → g.Holds pf.w last → first ≤ last →
    RangeGives pf (.int g) first last (upFrom first (last - first).toNat)

/-- C59 is false: `Range[int8](-128, 127)` panics since 127-(-128) wraps to -1. -/
theorem C59_counterexample : ¬ C59_statement := by
  intro h
  obtain ⟨f, hf⟩ := h pf64 (Or.inr rfl) .int8 (-128) 127 (by decide) (by decide) (by decide) (fun _ n => n) { cell := fun _ => (0 : Int), top := 0 }
  obtain ⟨r, m', e, _⟩ := hf f (Nat.le_refl _)
  rw [range_panic _ (.int .int8) (pf := pf64) (first := (-128 : Int)) (last := (127 : Int)) (by decide)] at e
  cases e

/-- C59 for the pairs whose difference fits the type and `int`: the result is first, first+1, ..., last-1. -/
theorem C59_range_partial (hw : pf.Real) (g : GoInt) (first last : Int) (hf : g.Holds pf.w first) (hl : g.Holds pf.w last) (hle : first ≤ last)
    (hd : last - first ≤ g.max pf.w) (hi : last - first ≤ GoInt.int.max pf.w) :
    RangeGives pf (.int g) first last (upFrom first (last - first).toNat) := by
  have h0 : g.min pf.w ≤ 0 := by
    unfold GoInt.min
    have := two_pow_pos (g.bits pf.w - 1)
    split <;> omega
  have h1 : GoInt.int.min pf.w ≤ 0 := by
    unfold GoInt.min
    have := two_pow_pos (GoInt.int.bits pf.w - 1)
    split <;> omega
  have e1 : g.wrap pf.w (last - first) = last - first := g.wrap_of_holds hw ⟨by omega, hd⟩
  have e2 : GoInt.int.wrap pf.w (last - first) = last - first := GoInt.int.wrap_of_holds hw ⟨by omega, hi⟩
  refine (climb_int hw g hl (last - first).toNat hf (by omega)).gives ?_
  show 0 ≤ GoInt.int.wrap pf.w (g.wrap pf.w (last - first))
  rw [e1, e2]
  omega

/-- C59: on a 64-bit platform every other pair panics. -/
theorem C59_panics (hw : pf.w = 64) (g : GoInt) (first last : Int) (hf : g.Holds pf.w first) (hl : g.Holds pf.w last)
    (hd : g.max pf.w < last - first ∨ GoInt.int.max pf.w < last - first) : RangePanics pf (.int g) first last := by
  intro grow m fuel
  refine range_panic grow (.int g) ?_ fuel m
  show GoInt.int.wrap pf.w (g.wrap pf.w (last - first)) < 0
  unfold GoInt.Holds at hf hl
  rw [hw] at *
  have hi : GoInt.int.max 64 = 9223372036854775807 := by decide
  rw [hi] at hd
  cases g
  all_goals
    simp only [GoInt.min, GoInt.max, GoInt.wrap, GoInt.signed, GoInt.bits, if_true, Bool.false_eq_true, if_false, Int.bmod_def] at *
    omega

example : RangeGives pf64 (.int .int8) (-3) 4 [-3, -2, -1, 0, 1, 2, 3] :=
  C59_range_partial (Or.inr rfl) .int8 (-3) 4 (by decide) (by decide) (by decide) (by decide) (by decide)

example : GoInt.Holds 64 .uint64 (2 ^ 64 - 1) ∧ GoInt.int.max 64 < (2 ^ 64 - 1 : Int) - 0 := by decide

/-! ## C60 -/

/-- C60 as stated: some number of iterations is enough. -/
def C60_statement : Prop :=
  ∀ (pf : Platform), pf.Real → ∀ (k : NKind) (first last : k.Val) grow m, ∃ fuel, range pf grow fuel k first last m ≠ .diverge

/-- C60 is false: `Range(float64(1<<53), float64(1<<53+2))` runs forever, appending 1<<53. -/
theorem C60_counterexample : ¬ C60_statement := by
  intro h
  obtain ⟨f, hf⟩ := h pf64 (Or.inr rfl) (.flt .float64) (Flt.ofInt (2 ^ 53)) (Flt.ofInt (2 ^ 53 + 2)) (fun _ n => n) { cell := fun _ => Flt.nan, top := 0 }
  exact hf (range_stuck _ (.flt .float64) (by decide +kernel) (by decide +kernel) (by decide +kernel) f _)

/-- The call terminates. -/
def RangeStops (pf : Platform) (k : NKind) (first last : k.Val) : Prop :=
  ∀ grow m, ∃ fuel0, ∀ fuel, fuel0 ≤ fuel → range pf grow fuel k first last m ≠ .diverge

theorem Climb.stops {k : NKind} {first last : k.Val} {vs : List k.Val} (h : Climb pf k last first vs) : RangeStops pf k first last := by
  intro grow m
  refine ⟨vs.length + 1, fun fuel hf => ?_⟩
  by_cases hc : 0 ≤ rangeCap pf k first last
  · obtain ⟨r, m', e, _⟩ := range_climb grow k h hc fuel (by omega) m
    rw [e]; simp
  · rw [range_panic grow k (by omega) fuel m]; simp

/-- C60 for all integer types and all pairs. -/
theorem C60_int_partial (hw : pf.Real) (g : GoInt) (first last : Int) (hf : g.Holds pf.w first) (hl : g.Holds pf.w last) :
    RangeStops pf (.int g) first last := by
  by_cases h : first ≤ last
  · exact (climb_int hw g hl (last - first).toNat hf (by omega)).stops
  · exact (climb_int_none g (by omega)).stops

/-- C60 for all types when `first < last` does not hold, which covers NaN. -/
theorem C60_none_partial (k : NKind) (first last : k.Val) (h : k.lt first last = false) : RangeStops pf k first last :=
  (Climb.stop h).stops

/-- C60 for all floats, integral or not, between -2^prec and 2^prec (2^24 for float32, 2^53 for float64). -/
theorem C60_float_partial (g : GoFloat) (first last : Int) (hf : - (2 ^ g.prec * Flt.one) ≤ first) (hf2 : first ≤ 2 ^ g.prec * Flt.one)
    (hl : last ≤ 2 ^ g.prec * Flt.one) : RangeStops pf (.flt g) (.fin first) (.fin last) := by
  have hp := Flt.one_pos
  have h2 := two_pow_pos g.prec
  have hub3 : (2 ^ g.prec) * (Flt.one : Int) ≤ 2 ^ (g.prec + 1) * Flt.one :=
    Int.mul_le_mul_of_nonneg_right (by rw [Int.pow_succ]; omega) (Int.le_of_lt hp)
  have hcast : ((2 ^ (g.prec + 1) : Nat) : Int) = 2 ^ g.prec + 2 ^ g.prec := by rw [Nat.pow_succ]; simp; omega
  obtain ⟨vs, hvs⟩ := climb_float (pf := pf) g hl (2 ^ (g.prec + 1)) (- 2 ^ g.prec) first (by rw [Int.neg_mul]; exact hf) (Int.le_refl _)
    (by omega) (by rw [hcast]; omega)
  exact hvs.stops

/-- C60, exactly, for every finite float `first < last`, both float types: the call ends if the capacity is negative (it panics) or
`CountEnds` holds, and runs forever, whatever the fuel, otherwise. -/
theorem C60_float_exact (g : GoFloat) (z : Int) (last : Flt) (hz : g.Rep z) (hlt : Flt.lt (.fin z) last = true) :
    (rangeCap pf (.flt g) (.fin z) last < 0 ∨ CountEnds g z last → RangeStops pf (.flt g) (.fin z) last) ∧
    (0 ≤ rangeCap pf (.flt g) (.fin z) last ∧ ¬ CountEnds g z last →
      ∀ grow fuel m, range pf grow fuel (.flt g) (.fin z) last m = .diverge) := by
  have hd := loops_or_climb (pf := pf) g hz hlt
  refine ⟨?_, fun ⟨hc, hn⟩ grow fuel m => range_loops grow (.flt g) (hd.2 hn) hc fuel m⟩
  rintro (hc | hc)
  · intro grow m
    exact ⟨0, fun fuel _ => by rw [range_panic grow (.flt g) hc fuel m]; simp⟩
  · obtain ⟨vs, hvs⟩ := hd.1 hc
    exact hvs.stops

/-- C60 for infinite starts: +Inf gives nothing to do, -Inf never gets anywhere. -/
theorem C60_infinite (g : GoFloat) (last : Flt) :
    RangeStops pf (.flt g) (.inf false) last ∧
    (0 ≤ rangeCap pf (.flt g) (.inf true) last → Flt.lt (.inf true) last = true →
      ∀ grow fuel m, range pf grow fuel (.flt g) (.inf true) last m = .diverge) := by
  refine ⟨Climb.stops (vs := []) (.stop ?_), fun hc hlt grow fuel m => range_stuck grow (.flt g) hlt rfl hc fuel m⟩
  show Flt.lt (.inf false) last = false
  cases last <;> simp [Flt.lt]

/-- C60: up to +Inf no finite start ever ends; down to -Inf there is nothing to do. -/
theorem C60_unbounded (g : GoFloat) (z : Int) (hz : g.Rep z) :
    (0 ≤ rangeCap pf (.flt g) (.fin z) (.inf false) → ∀ grow fuel m, range pf grow fuel (.flt g) (.fin z) (.inf false) m = .diverge) ∧
    RangeStops pf (.flt g) (.fin z) (.inf true) := by
  refine ⟨fun hc => (C60_float_exact g z (.inf false) hz rfl).2 ⟨hc, ?_⟩, C60_none_partial (.flt g) _ _ rfl⟩
  rintro (h | h | h)
  · exact absurd h.2.2 (by simp [Flt.lt])
  · exact absurd h.2.2.2 (by simp [Flt.lt])
  · exact absurd h.2 (by simp [Flt.lt])

/-- C60: `<` of floats: no float is above +Inf, below -Inf, or comparable with NaN; finite ones are compared as numbers. -/
theorem C60_order (x y : Flt) : Flt.lt x y = true ↔ x ≠ .nan ∧ y ≠ .nan ∧
    ((x = .inf true ∧ y ≠ .inf true) ∨ (y = .inf false ∧ x ≠ .inf false) ∨ ∃ a b, x = .fin a ∧ y = .fin b ∧ a < b) := by
  rcases x with a | s | _ <;> rcases y with b | t | _ <;> (try cases s) <;> (try cases t) <;> simp [Flt.lt]

/-- Each way to end, and not to end: 0.5 up to 3 ends; 2^53 - 1 up to 2^53 + 2 does not; 2^53 + 2 ends one step further, at
2^53 + 4, and no later; -(2^53 + 2) up to 5 ends; -(2^53 + 4) up to 5 does not. -/
example : GoFloat.float64.Rep (2 ^ 1073) ∧ CountEnds .float64 (2 ^ 1073) (Flt.ofInt 3) := by
  refine ⟨⟨by decide +kernel, 1, 1073, by decide +kernel⟩, .inl (by decide +kernel)⟩
example : GoFloat.float64.Rep ((2 ^ 53 - 1) * 2 ^ 1074) ∧ ¬ CountEnds .float64 ((2 ^ 53 - 1) * 2 ^ 1074) (Flt.ofInt (2 ^ 53 + 2)) := by
  refine ⟨⟨by decide +kernel, 2 ^ 53 - 1, 1074, by decide +kernel⟩, ?_⟩
  rintro (h | h | h) <;> revert h <;> decide +kernel
example : CountEnds .float64 ((2 ^ 53 + 2) * 2 ^ 1074) (Flt.ofInt (2 ^ 53 + 4)) ∧
    ¬ CountEnds .float64 ((2 ^ 53 + 2) * 2 ^ 1074) (Flt.ofInt (2 ^ 53 + 6)) := by
  refine ⟨.inr (.inl (by decide +kernel)), ?_⟩
  rintro (h | h | h) <;> revert h <;> decide +kernel
example : CountEnds .float64 (-(2 ^ 53 + 2) * 2 ^ 1074) (Flt.ofInt 5) ∧ ¬ CountEnds .float64 (-(2 ^ 53 + 4) * 2 ^ 1074) (Flt.ofInt 5) := by
  refine ⟨.inr (.inr (by decide +kernel)), ?_⟩
  rintro (h | h | h) <;> revert h <;> decide +kernel

/-- C60: for integral floats in that range the result is also the right one, if the length fits `int`. -/
theorem C60_float_integral (g : GoFloat) (first last : Int) (hf : first.natAbs ≤ 2 ^ g.prec) (hl : last.natAbs ≤ 2 ^ g.prec)
    (hle : first ≤ last) (hd : last - first ≤ 2 ^ g.prec) (hi : last - first ≤ GoInt.int.max pf.w) :
    RangeGives pf (.flt g) (Flt.ofInt first) (Flt.ofInt last) ((upFrom first (last - first).toNat).map Flt.ofInt) := by
  refine (climb_float_int g hl (last - first).toNat hf (by omega)).gives ?_
  have e : NKind.sub pf (.flt g) (Flt.ofInt last) (Flt.ofInt first) = Flt.ofInt (last - first) := by
    have := g.add_int last (-first) (by
      have : ((2 ^ g.prec : Nat) : Int) = (2 : Int) ^ g.prec := by simp
      omega)
    simpa [NKind.sub, GoFloat.sub_, Flt.ofInt, Int.neg_mul, Int.sub_eq_add_neg] using this
  have h1 : GoInt.int.min pf.w ≤ 0 := by
    unfold GoInt.min
    have := two_pow_pos (GoInt.int.bits pf.w - 1)
    split <;> omega
  show 0 ≤ NKind.conv pf (.flt g) (.int .int) (NKind.sub pf (.flt g) (Flt.ofInt last) (Flt.ofInt first))
  rw [e, conv_float_int g .int _ ⟨by omega, hi⟩]
  have : (0 : Int) ≤ last - first := by omega
  exact this

/-- C60: every finite float from 2^(prec+1) on is an endless start, for every end above it that `Range` accepts. -/
theorem C60_endless (g : GoFloat) (z : Nat) (last : Flt) (hz : 2 ^ (g.prec + 1) * Flt.one ≤ z) (hr : 2 ^ ulpExp g.prec g.sub z ∣ z)
    (hlim : z < g.limit) (hlt : Flt.lt (.fin z) last = true) (hc : 0 ≤ rangeCap pf (.flt g) (.fin z) last) (grow : Nat → Nat → Nat) (fuel : Nat)
    (m : Mem Flt) : range pf grow fuel (.flt g) (.fin z) last m = .diverge :=
  range_stuck grow (.flt g) hlt (float_absorbs g z hz hr hlim) hc fuel m

example : (2 : Nat) ^ (53 + 1) * Flt.one ≤ 3 * 2 ^ 53 * Flt.one ∧ 2 ^ ulpExp 53 0 (3 * 2 ^ 53 * Flt.one) ∣ 3 * 2 ^ 53 * Flt.one ∧
    3 * 2 ^ 53 * Flt.one < GoFloat.float64.limit ∧ 0 ≤ rangeCap pf64 (.flt .float64) (.fin (3 * 2 ^ 53 * Flt.one)) (.fin (2 ^ 55 * Flt.one)) := by
  decide +kernel

example : RangeGives pf64 (.flt .float32) (Flt.ofInt (-1)) (Flt.ofInt 2) [Flt.ofInt (-1), Flt.ofInt 0, Flt.ofInt 1] :=
  C60_float_integral .float32 (-1) 2 (by decide) (by decide) (by decide) (by decide) (by decide)

/-! ## C61 -/

/-- C61: `Generate` stores the results of `len(a)` calls of the generator in order and changes nothing else. -/
theorem C61_generate (a : Sl) (gen : σ → σ × T) (t : σ) (m : Mem T) :
    ∃ m', generate a gen t m = .ok (draws gen t a.len).1 m' ∧ a.read m' = (draws gen t a.len).2 ∧ OnlyIn m m' a :=
  ⟨_, generate_eq a gen t m, Sl.read_write_self _ _ _ (draws_length gen _ t), onlyIn_write _ _ _ (Nat.le_of_eq (draws_length gen _ t))⟩

example : ∃ m', generate ⟨1, 3, 4⟩ (fun t : Nat => (t + 1, (t * t : Int))) 2 { cell := fun _ => -1, top := 6 } = .ok 5 m' ∧
    Sl.read m' ⟨0, 6, 6⟩ = [-1, 4, 9, 16, -1, -1] := ⟨_, rfl, by decide⟩

/-! ## C85 -/

/-- C85 as stated. -/
def C85_statement : Prop :=
  ∀ (pf : Platform), pf.Real → ∀ (g : GoInt) (first last : Int), g.Holds pf.w first → g.Holds pf.w last → last ≤ first →
    RangeGives pf (.int g) first last []

/-- C85 is false: `Range(1, 0)` panics, since the capacity is -1. -/
theorem C85_counterexample : ¬ C85_statement := by
  intro h
  obtain ⟨f, hf⟩ := h pf64 (Or.inr rfl) .int 1 0 (by decide) (by decide) (by decide) (fun _ n => n) { cell := fun _ => (0 : Int), top := 0 }
  obtain ⟨r, m', e, _⟩ := hf f (Nat.le_refl _)
  rw [range_panic _ (.int .int) (pf := pf64) (first := (1 : Int)) (last := (0 : Int)) (by decide)] at e
  cases e

/-- C85 for equal bounds of every integer type. -/
theorem C85_equal_partial (g : GoInt) (first : Int) : RangeGives pf (.int g) first first [] := by
  refine (climb_int_none g (Int.le_refl _)).gives ?_
  show 0 ≤ GoInt.int.wrap pf.w (g.wrap pf.w (first - first))
  have : ∀ g : GoInt, g.wrap pf.w 0 = 0 := by
    intro g
    unfold GoInt.wrap
    split <;> simp
  rw [Int.sub_self, this, this]
  omega

/-- C85 for the unsigned types narrower than `int`: 0xFF..F is a capacity that `Range` asks for, and the result is empty. -/
theorem C85_narrow_partial (hw : pf.Real) (g : GoInt) (hs : g.signed = false) (hb : g.bits pf.w < pf.w) (first last : Int) (hle : last ≤ first) :
    RangeGives pf (.int g) first last [] := by
  refine (climb_int_none g hle).gives ?_
  show 0 ≤ GoInt.int.wrap pf.w (g.wrap pf.w (last - first))
  have h1 : (0 : Int) ≤ g.wrap pf.w (last - first) ∧ g.wrap pf.w (last - first) < 2 ^ g.bits pf.w := by
    have hp := two_pow_pos (g.bits pf.w)
    simp only [GoInt.wrap, hs, Bool.false_eq_true, if_false]
    exact ⟨Int.emod_nonneg _ (by omega), Int.emod_lt_of_pos _ hp⟩
  have h2 : (2 : Int) ^ g.bits pf.w ≤ 2 ^ (pf.w - 1) := by
    have := Nat.pow_le_pow_right (n := 2) (by decide) (by omega : g.bits pf.w ≤ pf.w - 1)
    exact_mod_cast this
  have h3 : GoInt.int.Holds pf.w (g.wrap pf.w (last - first)) := by
    have hp := two_pow_pos (pf.w - 1)
    constructor
    · simp only [GoInt.min, GoInt.signed, GoInt.bits, if_true]; omega
    · simp only [GoInt.max, GoInt.signed, GoInt.bits, if_true]; omega
  rw [GoInt.int.wrap_of_holds hw h3]
  exact h1.1

/-- C85: for the signed types a reversed pair panics unless the difference overflows. -/
theorem C85_panics (hw : pf.w = 64) (g : GoInt) (hs : g.signed = true) (first last : Int) (hlt : last < first) (hd : g.min pf.w ≤ last - first) :
    RangePanics pf (.int g) first last := by
  intro grow m fuel
  refine range_panic grow (.int g) ?_ fuel m
  show GoInt.int.wrap pf.w (g.wrap pf.w (last - first)) < 0
  rw [hw] at *
  cases g
  all_goals
    simp only [GoInt.min, GoInt.wrap, GoInt.signed, GoInt.bits, if_true, Bool.false_eq_true, Int.bmod_def] at *
    try omega

/-- C85: for the unsigned types of the width of `int` a reversed pair panics, unless it is further apart than `int` reaches. -/
theorem C85_panics_unsigned (hw : pf.w = 64) (g : GoInt) (hs : g.signed = false) (hb : g.bits pf.w = 64) (first last : Int) (hlt : last < first)
    (hd : first - last ≤ 2 ^ 63) : RangePanics pf (.int g) first last := by
  intro grow m fuel
  refine range_panic grow (.int g) ?_ fuel m
  show GoInt.int.wrap pf.w (g.wrap pf.w (last - first)) < 0
  rw [hw] at *
  have e : g.wrap 64 (last - first) = (last - first) % 2 ^ 64 := by
    simp only [GoInt.wrap, hs, Bool.false_eq_true, if_false, hb]
  rw [e]
  simp only [GoInt.wrap, GoInt.signed, GoInt.bits, if_true, Int.bmod_def]
  omega

/-- The capacity that `Range` asks for comes out negative: for the signed types, and for the types at least as wide as `int`, the top bit of the
difference in the narrower of the two widths is set; for the unsigned types narrower than `int` that cannot happen. -/
def CapNegative (w : Nat) (g : GoInt) (d : Int) : Prop :=
  (g.signed = true ∨ w ≤ g.bits w) ∧ 2 ^ (min (g.bits w) w - 1) ≤ d % 2 ^ min (g.bits w) w

/-- C85: what `Range` does for every pair of integers of every type on both word sizes: it panics if the capacity comes out negative,
and otherwise counts from `first` up to below `last`. -/
theorem C85_exact (hw : pf.Real) (g : GoInt) (first last : Int) (hl : g.Holds pf.w last) (hf : g.Holds pf.w first) :
    (CapNegative pf.w g (last - first) → RangePanics pf (.int g) first last) ∧
    (¬ CapNegative pf.w g (last - first) → RangeGives pf (.int g) first last (upFrom first (last - first).toNat)) := by
  have key : CapNegative pf.w g (last - first) ↔ rangeCap pf (.int g) first last < 0 := by
    show _ ↔ GoInt.int.wrap pf.w (g.wrap pf.w (last - first)) < 0
    generalize last - first = d
    unfold CapNegative
    rcases hw with hw | hw <;> rw [hw] <;> cases g <;>
      simp [GoInt.wrap, GoInt.signed, GoInt.bits, Int.bmod_def] <;> omega
  constructor
  · intro h grow m fuel
    exact range_panic grow (.int g) (key.1 h) fuel m
  · intro h
    have hc : 0 ≤ rangeCap pf (.int g) first last := Int.not_lt.1 (fun h' => h (key.2 h'))
    by_cases hle : first ≤ last
    · exact (climb_int hw g hl (last - first).toNat hf (by omega)).gives hc
    · have e : (last - first).toNat = 0 := by omega
      rw [e]
      exact (climb_int_none g (by omega)).gives hc

/-- Each side: int32 on a 32-bit platform with too large and reversed pairs; uint16 reversed; int8 reversed by more than 128. -/
example : CapNegative 32 .int32 (2 ^ 30 - -2 ^ 30) ∧ CapNegative 32 .uint32 (0 - 1) ∧ ¬ CapNegative 32 .uint32 (0 - 2 ^ 31 - 1) ∧
    ¬ CapNegative 64 .uint16 (0 - 1) ∧ CapNegative 64 .int8 (0 - 128) ∧ ¬ CapNegative 64 .int8 (-100 - 100) ∧ CapNegative 32 .int64 (2 ^ 31) ∧
    ¬ CapNegative 32 .int64 (2 ^ 32) := by
  unfold CapNegative
  decide

example : GoInt.signed .int16 = true ∧ GoInt.min 64 .int16 ≤ (-5 : Int) - 7 ∧ GoInt.signed .uint16 = false ∧ GoInt.bits 64 .uint16 < 64 ∧
    GoInt.signed .uint = false ∧ GoInt.bits 64 .uint = 64 := by decide

end Stl4go
