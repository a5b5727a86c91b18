import Verif.Proofs.NumericFloat
/-! # Lemmas about `SumAs` and `Average` -/
namespace Stl4go
variable {pf : Platform}

/-- The summation loop of an integer accumulator: the sum modulo 2^64. -/
theorem sumLoop_int (g t : GoInt) (a : List Int) : ∀ (total : Int),
    g.wrap pf.w (sumLoop pf (.int g) (.int t) a total) = g.wrap pf.w (total + a.sum) := by
  induction a with
  | nil => intro total; simp [sumLoop]
  | cons v a ih =>
    intro total
    simp only [sumLoop, ih, NKind.add, NKind.conv, List.sum_cons]
    rw [g.wrap_add_left, Int.add_assoc, Int.add_comm (g.wrap pf.w v), ← Int.add_assoc, g.wrap_add_right]
    congr 1
    omega

/-- `SumAs` for predeclared integer types. -/
theorem sumAs_int (hw : pf.w = 32 ∨ pf.w = 64) (r t : GoInt) (d : Bool) (a : List Int) :
    sumAs pf { kind := .int r, defined := d } (.int t) a = r.wrap pf.w a.sum := by
  have h64 : ∀ g : GoInt, g.bits pf.w = 64 →
      r.wrap pf.w (sumLoop pf (.int g) (.int t) a 0) = r.wrap pf.w a.sum := by
    intro g hg
    have hb : r.bits pf.w ≤ g.bits pf.w := by rw [hg]; exact r.bits_le hw
    have := sumLoop_int (pf := pf) g t a 0
    have e := r.wrap_wrap g hb (sumLoop pf (.int g) (.int t) a (0 : Int) : Int)
    rw [this, r.wrap_wrap g hb] at e
    simpa using e.symm
  cases t
  all_goals first
    | exact h64 .int64 rfl
    | exact h64 .uint64 rfl

/-- The summation loop of a float accumulator on integers, when no partial sum passes 2^53. -/
theorem sumLoop_float (t : GoInt) (a : List Int) : ∀ (total : Int), (∀ v ∈ a, v.natAbs ≤ 2 ^ 53) → (∀ k, (total + (a.take k).sum).natAbs ≤ 2 ^ 53) →
    sumLoop pf (.flt .float64) (.int t) a (Flt.ofInt total) = Flt.ofInt (total + a.sum) := by
  induction a with
  | nil => intro total _ _; simp [sumLoop]
  | cons v a ih =>
    intro total hv hk
    have h1 := hk 1
    simp only [List.take_succ_cons, List.take_zero, List.sum_cons, List.sum_nil, Int.add_zero] at h1
    have e1 : NKind.conv pf (.int t) (.flt .float64) v = Flt.ofInt v := GoFloat.ofUnits_int .float64 v (hv v (by simp))
    have e2 : NKind.add pf (.flt .float64) (Flt.ofInt total) (Flt.ofInt v) = Flt.ofInt (total + v) := GoFloat.add_int .float64 total v h1
    simp only [sumLoop, e1, e2]
    rw [ih (total + v) (fun x hx => hv x (by simp [hx]))]
    · simp [Int.add_assoc]
    · intro k
      have := hk (k + 1)
      simp only [List.take_succ_cons, List.sum_cons] at this
      rwa [Int.add_assoc]

/-- The same for float elements that are integers. -/
theorem sumLoop_floats (g : GoFloat) (a : List Int) : ∀ (total : Int), (∀ v ∈ a, v.natAbs ≤ 2 ^ 53) → (∀ k, (total + (a.take k).sum).natAbs ≤ 2 ^ 53) →
    sumLoop pf (.flt .float64) (.flt g) (a.map Flt.ofInt) (Flt.ofInt total) = Flt.ofInt (total + a.sum) := by
  induction a with
  | nil => intro total _ _; simp [sumLoop]
  | cons v a ih =>
    intro total hv hk
    have h1 := hk 1
    simp only [List.take_succ_cons, List.take_zero, List.sum_cons, List.sum_nil, Int.add_zero] at h1
    have e1 : NKind.conv pf (.flt g) (.flt .float64) (Flt.ofInt v) = Flt.ofInt v := GoFloat.ofUnits_int .float64 v (hv v (by simp))
    have e2 : NKind.add pf (.flt .float64) (Flt.ofInt total) (Flt.ofInt v) = Flt.ofInt (total + v) := GoFloat.add_int .float64 total v h1
    simp only [List.map_cons, sumLoop, e1, e2]
    rw [ih (total + v) (fun x hx => hv x (by simp [hx]))]
    · simp [Int.add_assoc]
    · intro k
      have := hk (k + 1)
      simp only [List.take_succ_cons, List.sum_cons] at this
      rwa [Int.add_assoc]

theorem zero_ofInt : Flt.fin 0 = Flt.ofInt 0 := by simp [Flt.ofInt]

theorem conv_float_int (f : GoFloat) (g : GoInt) (n : Int) (h : g.Holds pf.w n) : NKind.conv pf (.flt f) (.int g) (Flt.ofInt n) = n := by
  have e : (n * (Flt.one : Int)).tdiv Flt.one = n := Int.mul_tdiv_cancel n (Int.ne_of_gt Flt.one_pos)
  simp only [NKind.conv, Flt.ofInt, e]
  exact if_pos h

/-- `SumAs` for a defined integer element type, when no partial sum passes 2^53 and the sum fits the result type. -/
theorem sumAs_defined (r t : GoInt) (d : Bool) (a : List Int) (hv : ∀ v ∈ a, v.natAbs ≤ 2 ^ 53)
    (hk : ∀ k, ((a.take k).sum).natAbs ≤ 2 ^ 53) (hr : r.Holds pf.w a.sum) :
    sumAs pf { kind := .int r, defined := d } { kind := .int t, defined := true } a = a.sum := by
  have e : sumAcc { kind := .int t, defined := true } = .flt .float64 := by cases t <;> rfl
  have e0 : sumLoop pf (.flt .float64) (.int t) a (Flt.fin 0) = Flt.ofInt a.sum := by
    have := sumLoop_float (pf := pf) t a 0 hv (by simpa using hk)
    rw [← zero_ofInt] at this
    simpa using this
  show NKind.conv pf (sumAcc { kind := .int t, defined := true }) (.int r) _ = _
  unfold sumAcc at *
  show NKind.conv pf (.flt .float64) (.int r) (sumLoop pf (.flt .float64) (.int t) a (Flt.fin 0)) = _
  rw [e0, conv_float_int _ _ _ hr]

/-! ## Means -/

/-- A truncated mean lies between any bounds of the elements. -/
theorem tdiv_between {lo hi s n : Int} (hn : 0 < n) (h1 : lo * n ≤ s) (h2 : s ≤ hi * n) : lo ≤ s.tdiv n ∧ s.tdiv n ≤ hi := by
  by_cases hs : 0 ≤ s
  · rw [Int.tdiv_eq_ediv_of_nonneg hs]
    exact ⟨(Int.le_ediv_iff_mul_le hn).2 h1, Int.ediv_le_of_le_mul hn h2⟩
  · have e : s.tdiv n = - ((-s) / n) := by
      rw [← Int.tdiv_eq_ediv_of_nonneg (by omega : 0 ≤ -s), Int.neg_tdiv, Int.neg_neg]
    rw [e]
    have a1 : (-s) / n ≤ -lo := Int.ediv_le_of_le_mul hn (by rw [Int.neg_mul]; omega)
    have a2 : -hi ≤ (-s) / n := (Int.le_ediv_iff_mul_le hn).2 (by rw [Int.neg_mul]; omega)
    omega

theorem sum_between {lo hi : Int} (a : List Int) (h : ∀ v ∈ a, lo ≤ v ∧ v ≤ hi) : lo * a.length ≤ a.sum ∧ a.sum ≤ hi * a.length := by
  induction a with
  | nil => simp
  | cons v a ih =>
    have h1 := h v (by simp)
    have h2 := ih (fun x hx => h x (by simp [hx]))
    simp only [List.sum_cons, List.length_cons, Int.natCast_add, Int.natCast_one, Int.mul_add, Int.mul_one]
    omega

/-- The mean of values of a type is a value of the type. -/
theorem mean_holds {w : Nat} (g : GoInt) (a : List Int) (hne : a ≠ []) (h : ∀ v ∈ a, g.Holds w v) : g.Holds w (a.sum.tdiv a.length) := by
  obtain ⟨h1, h2⟩ := sum_between a h
  exact tdiv_between (by have := List.length_pos_iff.2 hne; omega) h1 h2

/-- `AverageAs` for integer types whenever `SumAs` gives the exact sum and the length fits. -/
theorem averageAs_int (hw : pf.w = 32 ∨ pf.w = 64) (r : GoInt) (d : Bool) (T : NType) (a : List T.kind.Val) (s : Int)
    (hs : sumAs pf { kind := .int r, defined := d } T a = s) (hne : a ≠ []) (hl : r.Holds pf.w a.length) (hm : r.Holds pf.w (s.tdiv a.length)) :
    averageAs pf { kind := .int r, defined := d } T a = .ret (s.tdiv a.length) := by
  have hpos := List.length_pos_iff.2 hne
  have e : NKind.conv pf (.int .int) (.int r) (a.length : Int) = (a.length : Int) := r.wrap_of_holds hw hl
  unfold averageAs
  show NKind.div pf (.int r) (sumAs pf { kind := .int r, defined := d } T a) (NKind.conv pf (.int .int) (.int r) (a.length : Int)) = _
  rw [hs, e]
  show (if (a.length : Int) = 0 then Outcome.panic else Outcome.ret (r.wrap pf.w (s.tdiv a.length))) = _
  rw [if_neg (by omega), r.wrap_of_holds hw hm]

/-- `AverageAs` for an integer result type panics exactly when the length is a multiple of 2^bits. -/
theorem averageAs_panic (r : GoInt) (d : Bool) (T : NType) (a : List T.kind.Val) :
    averageAs pf { kind := .int r, defined := d } T a = .panic ↔ (2 : Int) ^ r.bits pf.w ∣ a.length := by
  unfold averageAs
  show NKind.div pf (.int r) (sumAs pf { kind := .int r, defined := d } T a) (r.wrap pf.w a.length) = .panic ↔ _
  have : r.wrap pf.w a.length = 0 ↔ (2 : Int) ^ r.bits pf.w ∣ a.length := by
    constructor
    · intro h
      have := r.wrap_emod pf.w a.length
      rw [h] at this
      exact Int.dvd_of_emod_eq_zero (by simpa using this.symm)
    · intro h
      have : r.wrap pf.w a.length = r.wrap pf.w 0 := r.wrap_congr pf.w (by rw [Int.emod_eq_zero_of_dvd h]; simp)
      rw [this]
      unfold GoInt.wrap
      split <;> simp
  rw [← this]
  simp only [NKind.div]
  split <;> simp_all

end Stl4go
