import Verif.Proofs.NumericRound
import Verif.Props.Generate
/-!
# Properties C71-C74, C86-C88: `/repo/compute.go`

`pf` is any platform (32-bit or 64-bit words, any result of an out-of-range conversion). A slice is the list of its values: the
functions only read it. `GoInt.Holds`, `GoInt.Reduces`, `GoFloat.Rep` and `GoFloat.Nearest` are in `Spec/Numeric.lean`.
-/
namespace Stl4go
variable {pf : Platform}

/-! ## C71 -/

/-- C71: `SumAs` of predeclared integers is the exact sum reduced to the result type (predeclared or defined). -/
theorem C71_sumAs (hw : pf.Real) (R : GoInt) (d : Bool) (T : GoInt) (a : List Int) :
    R.Reduces pf.w a.sum (sumAs pf { kind := .int R, defined := d } (.int T) a) := by
  rw [sumAs_int hw]
  exact R.wrap_reduces hw a.sum

/-- C71: no other value is the reduction, so `C71_sumAs` determines the result. -/
theorem C71_unique (hw : pf.Real) (R : GoInt) (z r s : Int) (h1 : R.Reduces pf.w z r) (h2 : R.Reduces pf.w z s) : r = s := by
  rw [h1.eq hw, h2.eq hw]

/-- C71: what the types can hold, in numbers, so that "reduced to the type" cannot mean anything else. -/
theorem C71_ranges (pf : Platform) :
    (∀ z, GoInt.int8.Holds pf.w z ↔ -128 ≤ z ∧ z ≤ 127) ∧ (∀ z, GoInt.uint8.Holds pf.w z ↔ 0 ≤ z ∧ z ≤ 255) ∧
    (∀ z, GoInt.int16.Holds pf.w z ↔ -32768 ≤ z ∧ z ≤ 32767) ∧ (∀ z, GoInt.uint16.Holds pf.w z ↔ 0 ≤ z ∧ z ≤ 65535) ∧
    (∀ z, GoInt.int32.Holds pf.w z ↔ -2147483648 ≤ z ∧ z ≤ 2147483647) ∧ (∀ z, GoInt.uint32.Holds pf.w z ↔ 0 ≤ z ∧ z ≤ 4294967295) ∧
    (∀ z, GoInt.int64.Holds pf.w z ↔ -9223372036854775808 ≤ z ∧ z ≤ 9223372036854775807) ∧
    (∀ z, GoInt.uint64.Holds pf.w z ↔ 0 ≤ z ∧ z ≤ 18446744073709551615) ∧
    (∀ z, GoInt.int.Holds 64 z ↔ -9223372036854775808 ≤ z ∧ z ≤ 9223372036854775807) ∧ (∀ z, GoInt.int.Holds 32 z ↔ -2147483648 ≤ z ∧ z ≤ 2147483647) ∧
    (∀ g, g = GoInt.uint ∨ g = GoInt.uintptr → (∀ z, g.Holds 64 z ↔ 0 ≤ z ∧ z ≤ 18446744073709551615) ∧ (∀ z, g.Holds 32 z ↔ 0 ≤ z ∧ z ≤ 4294967295)) := by
  refine ⟨?_, ?_, ?_, ?_, ?_, ?_, ?_, ?_, ?_, ?_, ?_⟩
  case refine_11 => rintro g (rfl | rfl) <;> simp [GoInt.Holds, GoInt.min, GoInt.max, GoInt.signed, GoInt.bits] <;> omega
  all_goals intro z; simp [GoInt.Holds, GoInt.min, GoInt.max, GoInt.signed, GoInt.bits]; try omega

/-- C71: `Sum`. -/
theorem C71_sum (hw : pf.Real) (T : GoInt) (a : List Int) : T.Reduces pf.w a.sum (sum pf (.int T) a) := C71_sumAs hw T false T a

/-- C71: the sum is exact whenever it fits. -/
theorem C71_exact (hw : pf.Real) (R : GoInt) (d : Bool) (T : GoInt) (a : List Int) (h : R.Holds pf.w a.sum) :
    sumAs pf { kind := .int R, defined := d } (.int T) a = a.sum := by
  rw [sumAs_int hw]
  exact R.wrap_of_holds hw h

example : sum pf64 (.int .int8) ([100, 100, -73] : List Int) = (127 : Int) ∧ sum pf64 (.int .int8) ([100, 100] : List Int) = (-56 : Int) ∧
    sumAs pf64 (.int .int16) (.int .int8) ([100, 100] : List Int) = (200 : Int) := by decide

/-! ## C72 -/

/-- C72 as stated. -/
def C72_statement : Prop :=
  ∀ (pf : Platform), pf.Real → ∀ (T : GoInt) (a : List Int), (∀ v ∈ a, T.Holds pf.w v) → T.Holds pf.w a.sum →
    sum pf { kind := .int T, defined := true } a = a.sum

/-- C72 is false: for `type MyInt int64` the sum of 1<<53 and 1 is 1<<53, since a defined type is added up in float64. -/
theorem C72_counterexample : ¬ C72_statement := by
  intro h
  have := h pf64 (Or.inr rfl) .int64 [2 ^ 53, 1] (by decide) (by decide)
  revert this
  decide +kernel

/-- C72 when no element and no partial sum is beyond 2^53. -/
theorem C72_sum_partial (T : GoInt) (a : List Int) (hv : ∀ v ∈ a, v.natAbs ≤ 2 ^ 53) (hk : ∀ k, ((a.take k).sum).natAbs ≤ 2 ^ 53)
    (hs : T.Holds pf.w a.sum) : sum pf { kind := .int T, defined := true } a = a.sum := sumAs_defined T T true a hv hk hs

/-- C72: for the types up to 32 bits that covers every slice of up to 2^21 elements. -/
theorem C72_small (T : GoInt) (hT : T.bits pf.w ≤ 32) (a : List Int) (hv : ∀ v ∈ a, T.Holds pf.w v) (hlen : a.length ≤ 2 ^ 21)
    (hs : T.Holds pf.w a.sum) : sum pf { kind := .int T, defined := true } a = a.sum := by
  have hb : ∀ v : Int, T.Holds pf.w v → v.natAbs ≤ 2 ^ 32 := by
    intro v h
    have e1 : (2 : Int) ^ T.bits pf.w ≤ 2 ^ 32 := by
      have := Nat.pow_le_pow_right (n := 2) (by decide) hT
      exact_mod_cast this
    have e2 : (2 : Int) ^ (T.bits pf.w - 1) ≤ 2 ^ 32 := by
      have := Nat.pow_le_pow_right (n := 2) (by decide) (by omega : T.bits pf.w - 1 ≤ 32)
      exact_mod_cast this
    unfold GoInt.Holds GoInt.min GoInt.max at h
    split at h <;> omega
  have hsum : ∀ l : List Int, (∀ v ∈ l, v.natAbs ≤ 2 ^ 32) → l.sum.natAbs ≤ 2 ^ 32 * l.length := by
    intro l
    induction l with
    | nil => intro _; simp
    | cons v l ih =>
      intro h
      have h1 := h v (by simp)
      have h2 := ih (fun x hx => h x (by simp [hx]))
      simp only [List.sum_cons, List.length_cons]
      omega
  refine C72_sum_partial T a (fun v h => Nat.le_trans (hb v (hv v h)) (by decide)) (fun k => ?_) hs
  have h1 := hsum (a.take k) (fun v h => hb v (hv v (List.mem_of_mem_take h)))
  have h2 : (a.take k).length ≤ 2 ^ 21 := by simp; omega
  omega

example : (∀ v ∈ ([100, 27, -50] : List Int), GoInt.Holds 64 .int8 v) ∧ GoInt.Holds 64 .int8 ([100, 27, -50] : List Int).sum ∧
    sum pf64 { kind := .int .int8, defined := true } ([100, 27, -50] : List Int) = (77 : Int) := by decide +kernel

/-! ## C73 -/

/-- The 64-bit accumulator of `SumAs` for `T`. -/
def accOf (T : GoInt) : GoInt := if T.signed then .int64 else .uint64

/-- C73 as stated. -/
def C73_statement : Prop :=
  ∀ (pf : Platform), pf.Real → ∀ (T : GoInt) (a : List Int), (∀ v ∈ a, T.Holds pf.w v) → (a.length : Int) ≤ GoInt.int.max pf.w →
    (accOf T).Holds pf.w a.sum → (average pf (.int T) a = .panic ↔ a = []) ∧
    (a ≠ [] → average pf (.int T) a = .ret (a.sum.tdiv a.length : Int))

/-- C73 is false on 64-bit platforms: the average of 2^31+1 times the largest uint32 comes out wrong, since `Average` converts the sum to int64. -/
theorem C73_counterexample : ¬ C73_statement := by
  intro h
  have hsum : ∀ n : Nat, (List.replicate n (4294967295 : Int)).sum = n * 4294967295 := by
    intro n
    induction n with
    | zero => simp
    | succ n ih => simp only [List.replicate_succ, List.sum_cons, ih]; omega
  generalize hn : (2147483649 : Nat) = n
  obtain ⟨_, hav⟩ := h pf64 (Or.inr rfl) .uint32 (List.replicate n (4294967295 : Int)) (by
      intro v hv
      rw [List.eq_of_mem_replicate hv]
      decide) (by rw [List.length_replicate, ← hn]; decide) (by rw [hsum, ← hn]; decide)
  have hne' : List.replicate n (4294967295 : Int) ≠ [] := by
    intro hc
    have := congrArg List.length hc
    rw [List.length_replicate, ← hn] at this
    simp at this
  have e := hav hne'
  have hr : averageAs pf64 (.int .int64) (.int .uint32) (List.replicate n (4294967295 : Int)) = .ret (-4294967293 : Int) := by
    unfold averageAs
    rw [show sumAs pf64 (.int .int64) (.int .uint32) (List.replicate n (4294967295 : Int)) = GoInt.int64.wrap 64 9223372039002259455 by
      rw [sumAs_int (Or.inr rfl), hsum, ← hn]; rfl]
    rw [List.length_replicate, ← hn]
    decide
  have e2 : average pf64 (.int .uint32) (List.replicate n (4294967295 : Int)) = .ret (3 : Int) := by
    show (averageAs pf64 (.int .int64) (.int .uint32) (List.replicate n (4294967295 : Int)) >>= fun r =>
      pure (NKind.conv pf64 (.int .int64) (.int .uint32) r)) = _
    rw [hr]
    decide
  rw [e2, hsum, List.length_replicate, ← hn] at e
  revert e
  decide

/-- C73 is also false on 32-bit platforms, where `uint` sums are reduced to 32 bits before the division. -/
theorem C73_word32 : average pf32 (.int .uint) ([4294967295, 1] : List Int) = .ret (0 : Int) ∧
    (∀ v ∈ ([4294967295, 1] : List Int), GoInt.uint.Holds pf32.w v) ∧ (accOf .uint).Holds pf32.w ([4294967295, 1] : List Int).sum := by decide

/-- The type `Average` divides in. -/
def meanType : GoInt → GoInt
  | .uint64 => .uint64
  | .uint => .uint
  | .uintptr => .uintptr
  | _ => .int64

/-- C73 when the sum fits the type that `Average` divides in, which for uint8, uint16 and uint32 is int64. -/
theorem C73_average_partial (hw : pf.Real) (T : GoInt) (a : List Int) (hv : ∀ v ∈ a, T.Holds pf.w v) (hlen : (a.length : Int) ≤ GoInt.int.max pf.w)
    (hs : (meanType T).Holds pf.w a.sum) (hne : a ≠ []) : average pf (.int T) a = .ret (a.sum.tdiv a.length : Int) := by
  have hm := mean_holds (w := pf.w) T a hne hv
  have hpos := List.length_pos_iff.2 hne
  have hlR : (meanType T).Holds pf.w a.length := by
    rcases hw with hw | hw <;> rw [hw] at hlen ⊢ <;> cases T <;>
      simp [meanType, GoInt.Holds, GoInt.min, GoInt.max, GoInt.signed, GoInt.bits] at hlen ⊢ <;> omega
  have hmR : (meanType T).Holds pf.w (a.sum.tdiv a.length) := by
    have h1 := Int.natAbs_tdiv_le_natAbs a.sum a.length
    unfold GoInt.Holds at hs hm ⊢
    constructor
    · by_cases h : 0 ≤ a.sum
      · have := Int.tdiv_nonneg h (by omega : (0 : Int) ≤ a.length)
        have h0 : (meanType T).min pf.w ≤ 0 := by
          unfold GoInt.min
          have := two_pow_pos ((meanType T).bits pf.w - 1)
          split <;> omega
        omega
      · omega
    · have h0 : 0 ≤ (meanType T).max pf.w := by
        unfold GoInt.max
        have h1 := two_pow_pos ((meanType T).bits pf.w - 1)
        have h2 := two_pow_pos ((meanType T).bits pf.w)
        split <;> omega
      by_cases h : 0 ≤ a.sum
      · omega
      · have := Int.tdiv_nonneg (by omega : 0 ≤ -a.sum) (by omega : (0 : Int) ≤ a.length)
        rw [Int.neg_tdiv] at this
        omega
  have hsum : ∀ r : GoInt, r.Holds pf.w a.sum → sumAs pf (.int r) (.int T) a = a.sum := fun r h => C71_exact hw r false T a h
  have key := averageAs_int hw (meanType T) false (.int T) a a.sum (hsum _ hs) hne hlR hmR
  have hconv : NKind.conv pf (.int (meanType T)) (.int T) (a.sum.tdiv a.length) = (a.sum.tdiv a.length : Int) := T.wrap_of_holds hw hm
  have step : ∀ R : NType, averageVia (.int T) = some R → R = .int (meanType T) → average pf (.int T) a = .ret (a.sum.tdiv a.length : Int) := by
    intro R hR hE
    subst hE
    unfold average
    rw [hR]
    show (averageAs pf (.int (meanType T)) (.int T) a >>= fun r => pure (NKind.conv pf (.int (meanType T)) (.int T) r)) = _
    rw [key]
    show Outcome.ret (NKind.conv pf (.int (meanType T)) (.int T) (a.sum.tdiv a.length)) = _
    rw [hconv]
  cases T
  all_goals first
    | exact step _ rfl rfl
    | exact key

/-- C73: the value of `Average` in every case: the sum is reduced to the type that `Average` divides in, divided, and the quotient reduced to the
element type. -/
theorem C73_average_exact (hw : pf.Real) (T : GoInt) (a : List Int) (hlen : (a.length : Int) ≤ GoInt.int.max pf.w) (hne : a ≠ []) (s r : Int)
    (hs : (meanType T).Reduces pf.w a.sum s) (hr : T.Reduces pf.w (s.tdiv a.length) r) : average pf (.int T) a = .ret (r : Int) := by
  have hpos := List.length_pos_iff.2 hne
  have hlR : (meanType T).Holds pf.w a.length := by
    rcases hw with hw | hw <;> rw [hw] at hlen ⊢ <;> cases T <;>
      simp [meanType, GoInt.Holds, GoInt.min, GoInt.max, GoInt.signed, GoInt.bits] at hlen ⊢ <;> omega
  have hq : (meanType T).Holds pf.w (s.tdiv a.length) := by
    have h1 := Int.natAbs_tdiv_le_natAbs s a.length
    have hs' := hs.1
    unfold GoInt.Holds at hs' ⊢
    by_cases h : 0 ≤ s
    · have := Int.tdiv_nonneg h (by omega : (0 : Int) ≤ a.length)
      have h0 : (meanType T).min pf.w ≤ 0 := by
        unfold GoInt.min
        have := two_pow_pos ((meanType T).bits pf.w - 1)
        split <;> omega
      omega
    · have := Int.tdiv_nonneg (a := -s) (b := a.length) (by omega) (by omega)
      rw [Int.neg_tdiv] at this
      have h0 : 0 ≤ (meanType T).max pf.w := by
        unfold GoInt.max
        have := two_pow_pos ((meanType T).bits pf.w - 1)
        have := two_pow_pos ((meanType T).bits pf.w)
        split <;> omega
      omega
  have key : averageAs pf (.int (meanType T)) (.int T) a = .ret (s.tdiv a.length : Int) := by
    show NKind.div pf (.int (meanType T)) (sumAs pf { kind := .int (meanType T), defined := false } (.int T) a) ((meanType T).wrap pf.w a.length) = _
    rw [sumAs_int hw, ← hs.eq hw, (meanType T).wrap_of_holds hw hlR]
    show (if (a.length : Int) = 0 then Outcome.panic else Outcome.ret ((meanType T).wrap pf.w (s.tdiv a.length))) = _
    rw [if_neg (by omega), (meanType T).wrap_of_holds hw hq]
  have step : ∀ R : GoInt, meanType T = R → averageVia (.int T) = some (.int R) → average pf (.int T) a = .ret (r : Int) := by
    intro R e1 e2
    unfold average
    rw [e2]
    rw [e1] at key
    show (averageAs pf (.int R) (.int T) a).bind _ = _
    rw [key]
    show Outcome.ret (T.wrap pf.w (s.tdiv a.length)) = _
    rw [← hr.eq hw]
  have same : meanType T = T → averageVia (.int T) = none → average pf (.int T) a = .ret (r : Int) := by
    intro e1 e2
    unfold average
    rw [e2]
    rw [e1] at key hq
    show averageAs pf (.int T) (.int T) a = _
    rw [key, hr.eq hw, T.wrap_of_holds hw hq]
  cases T
  all_goals first
    | exact step _ rfl rfl
    | exact same rfl rfl

example : GoInt.Reduces 32 (meanType .uint) ([4294967295, 3] : List Int).sum 2 ∧ GoInt.Reduces 32 .uint (Int.tdiv 2 2) 1 ∧
    average pf32 (.int .uint) ([4294967295, 3] : List Int) = .ret (1 : Int) :=
  ⟨⟨by decide, -1, by decide⟩, ⟨by decide, 0, by decide⟩, by decide⟩

/-- C73: `Average` of predeclared integers panics exactly for the empty slice. -/
theorem C73_panics (hw : pf.Real) (T : GoInt) (a : List Int) (hlen : (a.length : Int) ≤ GoInt.int.max pf.w) :
    average pf (.int T) a = .panic ↔ a = [] := by
  have hdvd : ∀ R : GoInt, pf.w ≤ R.bits pf.w → ((2 : Int) ^ R.bits pf.w ∣ a.length ↔ a = []) := by
    intro R hR
    constructor
    · intro h
      have h1 : (a.length : Int) < 2 ^ R.bits pf.w := by
        have h2 : GoInt.int.max pf.w < 2 ^ pf.w := by
          simp only [GoInt.max, GoInt.signed, GoInt.bits, if_true]
          have := two_pow_split (b := pf.w) (by rcases hw with h | h <;> omega)
          have := two_pow_pos (pf.w - 1)
          omega
        have h3 : (2 : Int) ^ pf.w ≤ 2 ^ R.bits pf.w := by
          have := Nat.pow_le_pow_right (n := 2) (by decide) hR
          exact_mod_cast this
        omega
      have h4 := Int.emod_eq_zero_of_dvd h
      rw [Int.emod_eq_of_lt (by omega) h1] at h4
      exact List.length_eq_zero_iff.1 (by omega)
    · rintro rfl; simp
  have step : ∀ R : GoInt, averageVia (.int T) = some (.int R) → pf.w ≤ R.bits pf.w → (average pf (.int T) a = .panic ↔ a = []) := by
    intro R hR hb
    unfold average
    rw [hR, ← hdvd R hb, ← averageAs_panic R false (.int T) a]
    show (averageAs pf (.int R) (.int T) a >>= fun r => pure (NKind.conv pf (.int R) (.int T) r)) = .panic ↔ _
    rcases h : averageAs pf (.int R) (.int T) a with r | _ | _
    · constructor
      · intro h2; cases h2
      · intro h2; cases h2
    · exact ⟨fun _ => rfl, fun _ => rfl⟩
    · constructor
      · intro h2; cases h2
      · intro h2; cases h2
  have step' : averageVia (.int T) = none → pf.w ≤ T.bits pf.w → (average pf (.int T) a = .panic ↔ a = []) := by
    intro hR hb
    unfold average
    rw [hR, ← hdvd T hb, ← averageAs_panic T false (.int T) a]
  have hw64 : pf.w ≤ 64 := by rcases hw with h | h <;> omega
  cases T
  all_goals first
    | exact step .int64 rfl hw64
    | exact step .uint64 rfl hw64
    | exact step' rfl hw64
    | exact step' rfl (Nat.le_refl _)

example : average pf64 (.int .int8) ([-100, -100, -101] : List Int) = .ret (-100 : Int) ∧
    (∀ v ∈ ([-100, -100, -101] : List Int), GoInt.Holds pf64.w .int8 v) ∧ (meanType .int8).Holds pf64.w ([-100, -100, -101] : List Int).sum := by decide

/-! ## C74 -/

/-- C74 as stated: `AverageAs` with any integer result type, and `Average` of a defined integer type. -/
def C74_statement : Prop :=
  ∀ (pf : Platform), pf.Real → ∀ (R T : GoInt) (a : List Int), (∀ v ∈ a, T.Holds pf.w v) → a ≠ [] → R.Holds pf.w (a.sum.tdiv a.length) →
    averageAs pf (.int R) (.int T) a = .ret (a.sum.tdiv a.length : Int) ∧
    average pf { kind := .int T, defined := true } a = .ret (a.sum.tdiv a.length : Int)

/-- C74 is false: `AverageAs[int8]` of 256 elements divides by int8(256), that is zero. -/
theorem C74_counterexample : ¬ C74_statement := by
  intro h
  have := (h pf64 (Or.inr rfl) .int8 .int8 (List.replicate 256 0) (by decide +kernel) (by decide +kernel) (by decide +kernel)).1
  revert this
  decide +kernel

/-- C74: other wrong results: 127 ones and 2 zeros are averaged as 127 / int8(129), and 100 and 100 as int8(200) / 2. -/
theorem C74_wrong : averageAs pf64 (.int .int8) (.int .int8) (List.replicate 127 (1 : Int) ++ [0, 0]) = .ret (-1 : Int) ∧
    averageAs pf64 (.int .int8) (.int .int8) ([100, 100] : List Int) = .ret (-28 : Int) := by decide +kernel

/-- C74 for `AverageAs` when the length and the sum fit the result type. -/
theorem C74_averageAs_partial (hw : pf.Real) (R : GoInt) (d : Bool) (T : GoInt) (a : List Int) (hne : a ≠ []) (hl : R.Holds pf.w a.length)
    (hs : R.Holds pf.w a.sum) (hm : R.Holds pf.w (a.sum.tdiv a.length)) :
    averageAs pf { kind := .int R, defined := d } (.int T) a = .ret (a.sum.tdiv a.length : Int) :=
  averageAs_int hw R d (.int T) a a.sum (C71_exact hw R d T a hs) hne hl hm

/-- C74 for `Average` of a defined type when the length and the sum fit it and no partial sum is beyond 2^53. -/
theorem C74_defined_partial (hw : pf.Real) (T : GoInt) (a : List Int) (hne : a ≠ []) (hv : ∀ v ∈ a, v.natAbs ≤ 2 ^ 53)
    (hk : ∀ k, ((a.take k).sum).natAbs ≤ 2 ^ 53) (hl : T.Holds pf.w a.length) (hs : T.Holds pf.w a.sum) (hm : T.Holds pf.w (a.sum.tdiv a.length)) :
    average pf { kind := .int T, defined := true } a = .ret (a.sum.tdiv a.length : Int) := by
  have e : average pf { kind := .int T, defined := true } a =
      averageAs pf { kind := .int T, defined := true } { kind := .int T, defined := true } a := by
    cases T <;> rfl
  rw [e]
  exact averageAs_int hw T true { kind := .int T, defined := true } a a.sum (C72_sum_partial T a hv hk hs) hne hl hm

/-- C74: `AverageAs` panics exactly when the length is a multiple of 2^bits of the result type, whatever the element type. -/
theorem C74_panics (R : GoInt) (d : Bool) (T : NType) (a : List T.kind.Val) :
    averageAs pf { kind := .int R, defined := d } T a = .panic ↔ (2 : Int) ^ R.bits pf.w ∣ a.length := averageAs_panic R d T a

/-- C74: the value of `AverageAs` for predeclared element types in every case: the sum and the length are each reduced to the result type, then divided. -/
theorem C74_averageAs_exact (hw : pf.Real) (R : GoInt) (d : Bool) (T : GoInt) (a : List Int) (s n r : Int) (hs : R.Reduces pf.w a.sum s)
    (hn : R.Reduces pf.w a.length n) (hne : n ≠ 0) (hr : R.Reduces pf.w (s.tdiv n) r) :
    averageAs pf { kind := .int R, defined := d } (.int T) a = .ret (r : Int) := by
  show NKind.div pf (.int R) (sumAs pf { kind := .int R, defined := d } (.int T) a) (R.wrap pf.w a.length) = _
  rw [sumAs_int hw, ← hs.eq hw, ← hn.eq hw]
  show (if n = 0 then Outcome.panic else Outcome.ret (R.wrap pf.w (s.tdiv n))) = _
  rw [if_neg hne, ← hr.eq hw]

example : GoInt.Reduces 64 .int8 ([-100, -28] ++ List.replicate 253 (0 : Int)).sum (-128) ∧
    GoInt.Reduces 64 .int8 ([-100, -28] ++ List.replicate 253 (0 : Int)).length (-1) ∧ GoInt.Reduces 64 .int8 (Int.tdiv (-128) (-1)) (-128) :=
  ⟨⟨by decide +kernel, 0, by decide +kernel⟩, ⟨by decide +kernel, -1, by decide +kernel⟩, ⟨by decide +kernel, -1, by decide +kernel⟩⟩

example : averageAs pf64 (.int .int8) (.int .int64) ([-7, 100, -50] : List Int) = .ret (14 : Int) ∧
    GoInt.Holds 64 .int8 ([-7, 100, -50] : List Int).sum := by decide

/-! ## C86 -/

set_option exponentiation.threshold 2100 in
/-- C86: which numbers are floats, in numbers: 24 and 53 bits, spaced by at least 2^-149 and 2^-1074, and below 2^128 and 2^1024. -/
theorem C86_formats (z : Int) :
    (GoFloat.float32.Rep z ↔ ∃ m e : Nat, z.natAbs = m * 2 ^ e ∧ m < 16777216 ∧ 925 ≤ e ∧ m * 2 ^ e < 2 ^ 1202) ∧
    (GoFloat.float64.Rep z ↔ ∃ m e : Nat, z.natAbs = m * 2 ^ e ∧ m < 9007199254740992 ∧ m * 2 ^ e < 2 ^ 2098) ∧
    Flt.ofInt 1 = .fin (2 ^ 1074) := by
  refine ⟨⟨fun ⟨h, m, e, h1, h2, h3⟩ => ⟨m, e, h1, h2, h3, h1 ▸ h⟩, fun ⟨m, e, h1, h2, h3, h⟩ => ⟨h1 ▸ h, m, e, h1, h2, h3⟩⟩,
    ⟨fun ⟨h, m, e, h1, h2, _⟩ => ⟨m, e, h1, h2, h1 ▸ h⟩, fun ⟨m, e, h1, h2, h⟩ => ⟨h1 ▸ h, m, e, h1, h2, Nat.zero_le _⟩⟩, by decide +kernel⟩

/-- C86: `SumAs` of integral floats whose partial sums stay within 2^53 is the exact sum, rounded once to the result type. -/
theorem C86_sumAs (f g : GoFloat) (a : List Int) (hv : ∀ v ∈ a, v.natAbs ≤ 2 ^ 53) (hk : ∀ k, ((a.take k).sum).natAbs ≤ 2 ^ 53) :
    ∃ r, sumAs pf (.flt f) (.flt g) (a.map Flt.ofInt) = Flt.fin r ∧ f.Nearest (a.sum * Flt.one) 1 r := by
  rw [sumAs_float f g a hv hk]
  have hs : a.sum.natAbs ≤ 2 ^ 53 := by simpa using hk a.length
  refine f.round_nearest (a.sum * Flt.one) 1 (by decide) ?_
  have hone : (a.sum * (Flt.one : Int)).natAbs ≤ 2 ^ 52 * 2 ^ (Flt.exp + 1) * 1 := by
    rw [Int.natAbs_mul, Int.natAbs_natCast, Nat.mul_one]
    have h1 : (2 : Nat) ^ 52 * 2 ^ (Flt.exp + 1) = 2 ^ 53 * Flt.one := by rw [Flt.one, ← Nat.pow_add, ← Nat.pow_add]; congr 1
    rw [h1]
    exact Nat.mul_le_mul_right _ hs
  have h2 : (2 : Nat) ^ 52 * 2 ^ (Flt.exp + 1) = 1 * 2 ^ (Flt.exp + 53) := by rw [← Nat.pow_add, Nat.one_mul]; congr 1
  rw [h2] at hone
  have hle := roundFrac_le f.prec f.sub (a.sum * (Flt.one : Int)).natAbs 1 f.prec_pos (by decide) 1 (Flt.exp + 53)
    (by cases f <;> decide) (by have := f.sub_le; omega) hone
  refine Nat.lt_of_le_of_lt hle ?_
  rw [Nat.one_mul]
  cases f <;> exact Nat.pow_lt_pow_right (by decide) (by omega)

/-- C86: for float64 results, and for float32 results up to 2^24, that is the exact sum. -/
theorem C86_exact (f g : GoFloat) (a : List Int) (hv : ∀ v ∈ a, v.natAbs ≤ 2 ^ 53) (hk : ∀ k, ((a.take k).sum).natAbs ≤ 2 ^ 53)
    (hs : a.sum.natAbs ≤ 2 ^ f.prec) : sumAs pf (.flt f) (.flt g) (a.map Flt.ofInt) = Flt.ofInt a.sum := by
  rw [sumAs_float f g a hv hk, f.ofUnits_int a.sum hs]

/-- C86: the partial sums of float32 elements are kept in float64: the 1 is not lost as it would be in float32. -/
example : sum pf64 (.flt .float32) (([2 ^ 24, 1, - 2 ^ 24] : List Int).map Flt.ofInt) = Flt.ofInt 1 ∧
    GoFloat.float32.add (Flt.ofInt (2 ^ 24)) (Flt.ofInt 1) = Flt.ofInt (2 ^ 24) := by decide +kernel

/-! ## C87 -/

/-- C87: `Average` of integral float64 values whose partial sums stay within 2^53 is a float64 nearest to the mean. -/
theorem C87_float64 (a : List Int) (hv : ∀ v ∈ a, v.natAbs ≤ 2 ^ 53) (hk : ∀ k, ((a.take k).sum).natAbs ≤ 2 ^ 53) (hne : a ≠ [])
    (hlen : a.length ≤ 2 ^ 53) :
    ∃ r, average pf (.flt .float64) (a.map Flt.ofInt) = .ret (Flt.fin r) ∧ GoFloat.float64.Nearest (a.sum * Flt.one) a.length r := by
  obtain ⟨r, e, hn⟩ := averageAs_float (pf := pf) .float64 a hv hk hne hlen
  refine ⟨r, ?_, hn⟩
  show (averageAs pf (.flt .float64) (.flt .float64) (a.map Flt.ofInt) >>= fun r => pure (NKind.conv pf (.flt .float64) (.flt .float64) r)) = _
  rw [e]
  show Outcome.ret (GoFloat.float64.ofUnits r) = _
  rw [hn.1.ofUnits]

/-- C87: for float32 it is a float32 nearest to a float64 nearest to the mean (two roundings). -/
theorem C87_float32 (a : List Int) (hv : ∀ v ∈ a, v.natAbs ≤ 2 ^ 53) (hk : ∀ k, ((a.take k).sum).natAbs ≤ 2 ^ 53) (hne : a ≠ [])
    (hlen : a.length ≤ 2 ^ 53) :
    ∃ q r, average pf (.flt .float32) (a.map Flt.ofInt) = .ret (Flt.fin r) ∧ GoFloat.float64.Nearest (a.sum * Flt.one) a.length q ∧
      GoFloat.float32.Nearest q 1 r := by
  obtain ⟨q, e, hn⟩ := averageAs_float (pf := pf) .float32 a hv hk hne hlen
  have hs : a.sum.natAbs ≤ 2 ^ 53 := by simpa using hk a.length
  have hpos := List.length_pos_iff.2 hne
  -- the mean is at most 2^53, so is `q`
  have hq : q.natAbs ≤ 2 ^ 53 * Flt.one := by
    have hrep : ∀ s : Int, s = 2 ^ 53 * (Flt.one : Int) ∨ s = - (2 ^ 53 * (Flt.one : Int)) → GoFloat.float64.Rep s := by
      intro s hs
      have h0 : s.natAbs = 1 * 2 ^ (53 + Flt.exp) := by
        have : ((2 ^ 53 * Flt.one : Nat) : Int) = 2 ^ 53 * (Flt.one : Int) := by simp
        have h1 : 2 ^ 53 * Flt.one = 1 * 2 ^ (53 + Flt.exp) := by rw [Nat.pow_add, Nat.one_mul, Flt.one]
        rw [← h1]
        omega
      refine ⟨?_, 1, 53 + Flt.exp, h0, by decide, Nat.zero_le _⟩
      rw [h0, Nat.one_mul]
      exact Nat.pow_lt_pow_right (by decide) (by omega)
    obtain ⟨n, hn'⟩ : ∃ n : Nat, n = a.length := ⟨_, rfl⟩
    rw [← hn'] at hn hpos
    have hc : ((2 ^ 53 * Flt.one : Nat) : Int) = 2 ^ 53 * (Flt.one : Int) := by simp
    have hb : (a.sum * (Flt.one : Int)).natAbs ≤ 2 ^ 53 * Flt.one := by
      rw [Int.natAbs_mul, Int.natAbs_natCast]; exact Nat.mul_le_mul_right _ hs
    have h1 := hn.2 _ (hrep _ (Or.inl rfl))
    have h2 := hn.2 _ (hrep _ (Or.inr rfl))
    generalize hX : 2 ^ 53 * (Flt.one : Int) = X at h1 h2 hc
    have hXn : X * 1 ≤ X * n := Int.mul_le_mul_of_nonneg_left (by omega) (by omega)
    rw [Int.mul_one] at hXn
    rw [Int.neg_mul] at h2
    have h3 : q * n ≤ X * n := by omega
    have h4 : (-X) * n ≤ q * n := by rw [Int.neg_mul]; omega
    have h5 := Int.le_of_mul_le_mul_right h3 (by omega)
    have h6 := Int.le_of_mul_le_mul_right h4 (by omega)
    omega
  obtain ⟨r, e2, hn2⟩ := GoFloat.float32.round_nearest q 1 (by decide) (by
    have h2 : 2 ^ 53 * Flt.one = 1 * 2 ^ (53 + Flt.exp) := by rw [Nat.pow_add, Nat.one_mul, Flt.one]
    rw [h2] at hq
    have hle := roundFrac_le GoFloat.float32.prec GoFloat.float32.sub q.natAbs 1 GoFloat.float32.prec_pos (by decide) 1 (53 + Flt.exp)
      (by decide) (by have := GoFloat.float32.sub_le; omega) (by omega)
    refine Nat.lt_of_le_of_lt hle ?_
    rw [Nat.one_mul]
    exact Nat.pow_lt_pow_right (by decide) (by omega))
  refine ⟨q, r, ?_, hn, hn2⟩
  show (averageAs pf (.flt .float64) (.flt .float32) (a.map Flt.ofInt) >>= fun r => pure (NKind.conv pf (.flt .float64) (.flt .float32) r)) = _
  rw [e]
  show Outcome.ret (GoFloat.float32.ofUnits q) = _
  unfold GoFloat.ofUnits
  rw [← e2]
  rfl

/-- C87: `Average` of floats, defined or not, never panics. -/
theorem C87_no_panic (g : GoFloat) (d : Bool) (a : List Flt) : ∃ r : Flt, average pf { kind := .flt g, defined := d } a = .ret r := by
  cases d <;> cases g <;> exact ⟨_, rfl⟩

/-- C87: of an empty slice it is NaN. -/
theorem C87_empty (g : GoFloat) (d : Bool) : average pf { kind := .flt g, defined := d } ([] : List Flt) = .ret Flt.nan := by
  have hz : ∀ f : GoFloat, f.ofUnits (0 * Flt.one) = .fin 0 := by
    intro f
    have := f.ofUnits_int 0 (by simp)
    simpa [Flt.ofInt] using this
  have hz' : ∀ f : GoFloat, f.ofUnits 0 = .fin 0 := by intro f; simpa using hz f
  have hd : ∀ f : GoFloat, averageAs pf { kind := .flt f, defined := d } { kind := .flt g, defined := d } ([] : List Flt) = .ret Flt.nan := by
    intro f
    have e : sumAs pf { kind := .flt f, defined := d } { kind := .flt g, defined := d } ([] : List Flt) = Flt.fin 0 := by
      cases d <;> cases g <;> exact hz' f
    unfold averageAs
    rw [e]
    show Outcome.ret (GoFloat.div f (.fin 0) (f.ofUnits (0 * Flt.one))) = _
    rw [hz]
    rfl
  cases d
  · have h := hd .float64
    have hv : averageVia { kind := .flt g, defined := false } = some (.flt .float64) := by cases g <;> rfl
    unfold average
    rw [hv]
    show (averageAs pf (.flt .float64) { kind := .flt g, defined := false } ([] : List Flt) >>= fun r =>
      pure (NKind.conv pf (.flt .float64) (.flt g) r)) = _
    rw [h]
    rfl
  · have hv : averageVia { kind := .flt g, defined := true } = none := by cases g <;> rfl
    unfold average
    rw [hv]
    exact hd g

example : average pf64 (.flt .float64) (([1, 2, 4] : List Int).map Flt.ofInt) = .ret (Flt.fin (5254199565265579 * 2 ^ (Flt.exp - 51))) := by decide +kernel

/-! ## C88 -/

/-- C88: one NaN or infinity in a float slice makes the sum NaN or infinite: no later element makes it finite again. -/
theorem C88_not_finite (f g : GoFloat) (d e : Bool) (a : List Flt) (x : Flt) (hx : x ∈ a) (hn : ∀ z, x ≠ .fin z) :
    ∀ z, sumAs pf { kind := .flt f, defined := e } { kind := .flt g, defined := d } a ≠ Flt.fin z := by
  have hadd : ∀ u v : Flt, (∀ z, u ≠ .fin z) ∨ (∀ z, v ≠ .fin z) → ∀ z, GoFloat.add .float64 u v ≠ .fin z := by
    intro u v h z
    rcases u with u | u | _ <;> rcases v with v | v | _ <;> simp [GoFloat.add] at h ⊢
    split <;> simp
  have hconv : ∀ (h h' : GoFloat) (u : Flt), (∀ z, u ≠ .fin z) → ∀ z, NKind.conv pf (.flt h) (.flt h') u ≠ Flt.fin z := by
    intro h h' u hu z
    rcases u with u | u | _
    · exact absurd rfl (hu u)
    · intro hc; cases hc
    · intro hc; cases hc
  have hloop : ∀ (l : List Flt) (t : Flt), ((∀ z, t ≠ .fin z) ∨ ∃ y ∈ l, ∀ z, y ≠ .fin z) →
      ∀ z, sumLoop pf (.flt .float64) (.flt g) l t ≠ Flt.fin z := by
    intro l
    induction l with
    | nil =>
      intro t h z
      rcases h with h | ⟨y, hy, _⟩
      · exact h z
      · simp at hy
    | cons v l ih =>
      intro t h z
      refine ih _ ?_ z
      rcases h with h | ⟨y, hy, hz⟩
      · exact Or.inl (hadd _ _ (Or.inl h))
      · rcases List.mem_cons.1 hy with rfl | hy
        · exact Or.inl (hadd _ _ (Or.inr (hconv _ _ _ hz)))
        · exact Or.inr ⟨y, hy, hz⟩
  have hl := hloop a (.fin 0) (Or.inr ⟨x, hx, hn⟩)
  intro z
  have : sumAs pf { kind := .flt f, defined := e } { kind := .flt g, defined := d } a =
      NKind.conv pf (.flt .float64) (.flt f) (sumLoop pf (.flt .float64) (.flt g) a (.fin 0)) := by
    cases d <;> cases g <;> rfl
  rw [this]
  exact hconv _ _ _ hl z

example : sum pf64 (.flt .float64) [Flt.ofInt 1, .inf true, Flt.ofInt 2] = Flt.inf true ∧
    sum pf64 (.flt .float64) [.inf false, .inf true, Flt.ofInt 2] = Flt.nan := by decide +kernel

end Stl4go
