import Verif.Proofs.Generate
import Verif.Proofs.NumericRound
/-! # `Range` on floats: which calls end -/
namespace Stl4go
variable {pf : Platform}

/-! ## Rounding where the spacing is 2, and where it is 4 or more -/

/-- From 2^(prec+1) on, floats are multiples of 4. -/
theorem round_dvd4 (g : GoFloat) (x : Nat) (hx : 2 ^ (g.prec + 1) * Flt.one ≤ x) : 4 * Flt.one ∣ roundFrac g.prec g.sub x 1 := by
  have hz2 : 2 ^ (g.prec + 1 + Flt.exp) ≤ x := by rw [Nat.pow_add]; exact hx
  have h0 : x ≠ 0 := by have := Nat.two_pow_pos (g.prec + 1 + Flt.exp); omega
  have hlog : g.prec + 1 + Flt.exp ≤ Nat.log2 x := (Nat.le_log2 h0).2 hz2
  rw [roundFrac_one]
  refine Nat.dvd_trans ?_ (Nat.dvd_mul_left _ _)
  have : 4 * Flt.one = 2 ^ (2 + Flt.exp) := by rw [Nat.pow_add, Flt.one]
  rw [this]
  apply Nat.pow_dvd_pow
  unfold ulpExp
  show _ ≤ max _ _
  omega

/-- Between 2^prec and 2^(prec+1) the spacing is 2. -/
theorem round_mid (g : GoFloat) (x : Nat) (h1 : 2 ^ g.prec * Flt.one ≤ x) (h2 : x < 2 ^ (g.prec + 1) * Flt.one) :
    roundFrac g.prec g.sub x 1 = roundDiv x (2 * Flt.one) * (2 * Flt.one) := by
  have h1' : 2 ^ (g.prec + Flt.exp) ≤ x := by rw [Nat.pow_add]; exact h1
  have h2' : x < 2 ^ (g.prec + 1 + Flt.exp) := by rw [Nat.pow_add _ _ Flt.exp]; exact h2
  have h0 : x ≠ 0 := by have := Nat.two_pow_pos (g.prec + Flt.exp); omega
  have a := (Nat.le_log2 h0).2 h1'
  have b := log2_lt_of_lt (by omega) h2'
  have hs := g.sub_le
  have e : ulpExp g.prec g.sub x = 1 + Flt.exp := by
    unfold ulpExp
    show max _ _ = _
    omega
  have e2 : (2 : Nat) ^ (1 + Flt.exp) = 2 * Flt.one := by rw [Nat.pow_add, Flt.one]
  rw [roundFrac_one, e, e2]

/-- An odd number there lies half way and goes to the multiple of 4. -/
theorem round_odd (g : GoFloat) (p : Nat) (h1 : 2 ^ g.prec ≤ 2 * p + 1) (h2 : 2 * p + 1 < 2 ^ (g.prec + 1)) :
    roundFrac g.prec g.sub ((2 * p + 1) * Flt.one) 1 = if p % 2 = 0 then 2 * p * Flt.one else (2 * p + 2) * Flt.one := by
  have hone : 0 < Flt.one := Nat.two_pow_pos _
  rw [round_mid g _ (Nat.mul_le_mul_right _ h1) (Nat.mul_lt_mul_of_pos_right h2 hone)]
  generalize Flt.one = o at hone
  have e : (2 * p + 1) * o = 2 * o * p + o := by rw [Nat.add_mul, Nat.one_mul, Nat.mul_right_comm]
  have hm : (2 * p + 1) * o % (2 * o) = o := by rw [e, Nat.mul_add_mod]; exact Nat.mod_eq_of_lt (by omega)
  have hd : (2 * p + 1) * o / (2 * o) = p := by
    rw [e, Nat.mul_add_div (by omega), Nat.div_eq_of_lt (by omega)]; rfl
  unfold roundDiv
  rw [hm, hd, if_neg (by omega), if_neg (by omega)]
  split
  · rw [Nat.mul_comm p, Nat.mul_right_comm]
  · rw [Nat.mul_comm (p + 1), Nat.mul_right_comm, Nat.mul_add]

theorem GoFloat.Rep.round_eq {g : GoFloat} {z : Int} (h : g.Rep z) : roundFrac g.prec g.sub z.natAbs 1 = z.natAbs := by
  obtain ⟨_, m, e, h1, h2, h3⟩ := h
  have hn := roundFrac_nearest g.prec g.sub z.natAbs 1 g.prec_pos (by decide) m e h2 h3
  rw [← h1] at hn
  omega

/-- A float there is an even integer. -/
theorem GoFloat.Rep.mid {g : GoFloat} {z : Int} (h : g.Rep z) (h1 : 2 ^ g.prec * Flt.one ≤ z.natAbs)
    (h2 : z.natAbs < 2 ^ (g.prec + 1) * Flt.one) : ∃ q, z.natAbs = 2 * q * Flt.one ∧ 2 ^ g.prec ≤ 2 * q ∧ 2 * q < 2 ^ (g.prec + 1) := by
  have e := h.round_eq
  rw [round_mid g _ h1 h2] at e
  refine ⟨roundDiv z.natAbs (2 * Flt.one), ?_, ?_, ?_⟩
  · rw [← Nat.mul_assoc, Nat.mul_comm _ 2] at e; exact e.symm
  all_goals
    rw [← Nat.mul_assoc, Nat.mul_comm _ 2] at e
    generalize roundDiv z.natAbs (2 * Flt.one) = q at e
    rw [← e] at h1 h2
  · exact Nat.le_of_mul_le_mul_right h1 (Nat.two_pow_pos _)
  · exact Nat.lt_of_mul_lt_mul_right h2

/-! ## Adding one -/

theorem add_one_pos (g : GoFloat) (a r : Nat) (e : roundFrac g.prec g.sub (a + Flt.one) 1 = r) (hl : r < g.limit) :
    g.add (.fin a) (.fin Flt.one) = .fin r := by
  show g.ofUnits ((a : Int) + (Flt.one : Int)) = _
  have hna : ((a : Int) + (Flt.one : Int)).natAbs = a + Flt.one := by omega
  rw [g.ofUnits_eq _ (by rw [hna, e]; exact hl)]
  unfold GoFloat.rnd
  rw [hna, e, if_neg (by omega)]

theorem add_one_neg (g : GoFloat) (a r : Nat) (ha : Flt.one < a) (e : roundFrac g.prec g.sub (a - Flt.one) 1 = r) (hl : r < g.limit) :
    g.add (.fin (-(a : Int))) (.fin Flt.one) = .fin (-(r : Int)) := by
  show g.ofUnits (-(a : Int) + (Flt.one : Int)) = _
  have hna : (-(a : Int) + (Flt.one : Int)).natAbs = a - Flt.one := by omega
  rw [g.ofUnits_eq _ (by rw [hna, e]; exact hl)]
  unfold GoFloat.rnd
  rw [hna, e, if_pos (by omega)]

theorem near_dvd {a r q : Nat} (h1 : q ∣ a) (h2 : q ∣ r) (hlt : r < a + q) (hgt : a < r + q) : r = a := by
  obtain ⟨x, rfl⟩ := h1
  obtain ⟨y, rfl⟩ := h2
  have e1 : q * y < q * (x + 1) := by rw [Nat.mul_add, Nat.mul_one]; exact hlt
  have e2 : q * x < q * (y + 1) := by rw [Nat.mul_add, Nat.mul_one]; exact hgt
  have := Nat.lt_of_mul_lt_mul_left e1
  have := Nat.lt_of_mul_lt_mul_left e2
  congr 1
  omega

theorem near_above {a r o : Nat} (ho : 0 < o) (h1 : 4 * o ∣ a) (h2 : 4 * o ∣ r)
    (hn : ((r * 1 : Nat) - ((a + o : Nat) : Int)).natAbs ≤ ((a * 1 : Nat) - ((a + o : Nat) : Int)).natAbs) : r = a :=
  near_dvd h1 h2 (by omega) (by omega)

theorem near_below {a r o : Nat} (ho : 0 < o) (hoa : o < a) (h1 : 4 * o ∣ a) (h2 : 4 * o ∣ r)
    (hn : ((r * 1 : Nat) - ((a - o : Nat) : Int)).natAbs ≤ ((a * 1 : Nat) - ((a - o : Nat) : Int)).natAbs) : r = a :=
  near_dvd h1 h2 (by omega) (by omega)

theorem one_le_two_pow (n : Nat) : 2 ≤ 2 ^ (n + 1) := by
  have := Nat.two_pow_pos n
  rw [Nat.pow_succ]; omega

theorem GoFloat.four_dvd (g : GoFloat) : 4 ∣ 2 ^ (g.prec + 1) :=
  Nat.pow_dvd_pow 2 (m := 2) (by cases g <;> decide)

theorem step_dvd {o a y : Nat} (ho : 0 < o) (hd : 4 * o ∣ a) (h : 4 * y * o < a) : 4 * y * o ≤ a - o := by
  obtain ⟨x, rfl⟩ := hd
  rw [Nat.mul_right_comm] at h ⊢
  have := Nat.mul_le_mul_left (4 * o) (Nat.lt_of_mul_lt_mul_left h)
  rw [Nat.mul_succ] at this
  omega

theorem GoFloat.prec_two (g : GoFloat) : 2 ≤ 2 ^ g.prec ∧ (2 ^ g.prec - 1) % 2 = 1 ∧ 2 ^ g.prec = 2 * 2 ^ (g.prec - 1) ∧
    2 ^ (g.prec - 1) % 2 = 0 := by cases g <;> decide

/-- From 2^(prec+1) on, in both directions, adding one changes nothing. -/
theorem absorb_big {g : GoFloat} {z : Int} (h : g.Rep z) (hz : 2 ^ (g.prec + 1) * Flt.one ≤ z.natAbs) :
    g.add (.fin z) (.fin Flt.one) = .fin z := by
  have hone : 0 < Flt.one := Nat.two_pow_pos _
  have e := h.round_eq
  have hd : 4 * Flt.one ∣ z.natAbs := by have := round_dvd4 g _ hz; rwa [e] at this
  obtain ⟨hl, m, ex, h1, h2, h3⟩ := h
  have hbig : Flt.one < z.natAbs := by
    have := Nat.mul_le_mul_right Flt.one (one_le_two_pow g.prec)
    omega
  by_cases hneg : z < 0
  · obtain ⟨a, rfl⟩ : ∃ a : Nat, z = -(a : Int) := ⟨z.natAbs, by omega⟩
    simp only [Int.natAbs_neg, Int.natAbs_natCast] at *
    refine add_one_neg g a a hbig ?_ hl
    rcases Nat.lt_or_eq_of_le hz with hgt | heq
    · -- still among the multiples of 4
      have hge : 2 ^ (g.prec + 1) * Flt.one ≤ a - Flt.one := by
        obtain ⟨y, hy⟩ := g.four_dvd
        have := step_dvd (o := Flt.one) (y := y) hone hd (by rw [← hy]; exact hgt)
        rw [hy]; exact this
      have hn := roundFrac_nearest g.prec g.sub (a - Flt.one) 1 g.prec_pos (by decide) m ex h2 h3
      rw [← h1] at hn
      exact near_below hone hbig hd (round_dvd4 g _ hge) hn
    · rw [← heq]
      have hp : 2 ^ (g.prec + 1) = 2 * (2 ^ g.prec - 1) + 2 := by have := Nat.two_pow_pos g.prec; rw [Nat.pow_succ]; omega
      have e1 : 2 ^ (g.prec + 1) * Flt.one - Flt.one = (2 * (2 ^ g.prec - 1) + 1) * Flt.one := by
        rw [hp]; simp only [Nat.add_mul, Nat.one_mul]; omega
      have hpos := Nat.two_pow_pos g.prec
      obtain ⟨h22, hpar, _, _⟩ := g.prec_two
      rw [e1, round_odd g _ (by omega) (by omega), if_neg (by omega), ← hp]
  · obtain ⟨a, rfl⟩ : ∃ a : Nat, z = (a : Int) := ⟨z.natAbs, by omega⟩
    simp only [Int.natAbs_natCast] at *
    refine add_one_pos g a a ?_ hl
    have hn := roundFrac_nearest g.prec g.sub (a + Flt.one) 1 g.prec_pos (by decide) m ex h2 h3
    rw [← h1] at hn
    exact near_above hone hd (round_dvd4 g (a + Flt.one) (Nat.le_trans hz (Nat.le_add_right _ _))) hn

theorem GoFloat.lt_limit (g : GoFloat) (n : Nat) (h : n ≤ 2 ^ (g.prec + 1)) : n * Flt.one < g.limit :=
  Nat.lt_of_le_of_lt (Nat.mul_le_mul_right _ h) g.limit_gt

/-- Above 2^prec: multiples of 4 absorb one, the others go to the next multiple of 4. -/
theorem add_one_mid_pos (g : GoFloat) (q : Nat) (h1 : 2 ^ g.prec ≤ 2 * q) (h2 : 2 * q < 2 ^ (g.prec + 1)) :
    g.add (.fin ((2 * q * Flt.one : Nat) : Int)) (.fin Flt.one) =
      .fin ((if q % 2 = 0 then 2 * q * Flt.one else (2 * q + 2) * Flt.one : Nat) : Int) := by
  have hpw : 2 ^ (g.prec + 1) = 2 * 2 ^ g.prec := by rw [Nat.pow_succ, Nat.mul_comm]
  apply add_one_pos
  · have e : 2 * q * Flt.one + Flt.one = (2 * q + 1) * Flt.one := by rw [Nat.add_mul, Nat.one_mul]
    rw [e, round_odd g q (by omega) (by omega)]
  · split
    · exact g.lt_limit _ (by omega)
    · exact g.lt_limit _ (by omega)

/-- Below -2^prec: the same. -/
theorem add_one_mid_neg (g : GoFloat) (q : Nat) (h1 : 2 ^ g.prec < 2 * q) (h2 : 2 * q < 2 ^ (g.prec + 1)) :
    g.add (.fin (-((2 * q * Flt.one : Nat) : Int))) (.fin Flt.one) =
      .fin (-((if q % 2 = 0 then 2 * q * Flt.one else (2 * q - 2) * Flt.one : Nat) : Int)) := by
  have hpos := Nat.two_pow_pos g.prec
  have hone : 0 < Flt.one := Nat.two_pow_pos _
  obtain ⟨p, rfl⟩ : ∃ p, q = p + 1 := ⟨q - 1, by omega⟩
  have e : 2 * (p + 1) * Flt.one - Flt.one = (2 * p + 1) * Flt.one := by
    simp only [Nat.mul_add, Nat.add_mul, Nat.one_mul]; omega
  apply add_one_neg
  · have := Nat.mul_le_mul_right Flt.one (by omega : 2 ≤ 2 * (p + 1))
    omega
  · rw [e, round_odd g p (by omega) (by omega)]
    by_cases hp : p % 2 = 0
    · rw [if_pos hp, if_neg (by omega)]; congr 1
    · rw [if_neg hp, if_pos (by omega)]; congr 1
  · split
    · exact g.lt_limit _ (by omega)
    · exact g.lt_limit _ (by omega)

/-! ## Loops that never end -/

/-- The loop of `Range` comes to a value below `last` that absorbs one. -/
inductive Loops (pf : Platform) (k : NKind) (last : k.Val) : k.Val → Prop where
  | here {v : k.Val} (h : k.lt v last = true) (hs : k.add pf v k.one = v) : Loops pf k last v
  | step {v : k.Val} (h : k.lt v last = true) (t : Loops pf k last (k.add pf v k.one)) : Loops pf k last v

theorem rangeLoop_loops (grow : Nat → Nat → Nat) (k : NKind) {last v : k.Val} (h : Loops pf k last v) :
    ∀ (fuel : Nat) (a : Sl) (m : Mem k.Val), a.WF m → rangeLoop pf grow k last fuel v a m = .diverge := by
  induction h with
  | here h hs => exact fun fuel => rangeLoop_stuck grow k h hs fuel
  | @step v h t ih =>
    intro fuel a m hw
    cases fuel with
    | zero => rfl
    | succ f =>
      obtain ⟨a', m', e, g, _⟩ := Sl.append_spec grow a [v] m hw
      simp only [rangeLoop, if_pos h, GoM.bind_def, e]
      exact ih f a' m' g.wf

theorem range_loops (grow : Nat → Nat → Nat) (k : NKind) {first last : k.Val} (h : Loops pf k last first)
    (hc : 0 ≤ rangeCap pf k first last) (fuel : Nat) (m : Mem k.Val) : range pf grow fuel k first last m = .diverge := by
  obtain ⟨c, hc'⟩ : ∃ c : Nat, rangeCap pf k first last = c := ⟨_, (Int.toNat_of_nonneg hc).symm⟩
  have e := Sl.make_ok (T := k.Val) 0 c (by omega) m
  unfold rangeCap at hc'
  simp only [range, GoM.bind_def, hc']
  simp only [Int.natCast_zero] at e
  rw [e]
  exact rangeLoop_loops grow k h fuel _ _ (Fresh.make m 0 c (by omega)).wf

theorem Flt.lt_of_le {a b : Int} {x : Flt} (h : a ≤ b) (hb : Flt.lt (.fin b) x = true) : Flt.lt (.fin a) x = true := by
  cases x with
  | fin c => simp [Flt.lt] at *; omega
  | inf s => simpa [Flt.lt] using hb
  | nan => simp [Flt.lt] at hb

/-- The floats up to 2^prec all come to 2^prec, which absorbs one. -/
theorem loops_wall (g : GoFloat) {last : Flt} (hl : Flt.lt (.fin (2 ^ g.prec * Flt.one : Int)) last = true) (n : Nat) :
    ∀ (j v : Int), j * Flt.one ≤ v → - 2 ^ g.prec ≤ j → v ≤ 2 ^ g.prec * Flt.one → 2 ^ g.prec ≤ j + n → Loops pf (.flt g) last (.fin v) := by
  have hp := Flt.one_pos
  have h2 := two_pow_pos g.prec
  have hcast : ((2 ^ g.prec : Nat) : Int) = (2 : Int) ^ g.prec := by simp
  obtain ⟨_, _, hhalf, hq⟩ := g.prec_two
  have hpw : (2 : Nat) ^ (g.prec + 1) = 2 * 2 ^ g.prec := by rw [Nat.pow_succ, Nat.mul_comm]
  have hwall : g.add (.fin (2 ^ g.prec * Flt.one : Int)) (.fin Flt.one) = .fin (2 ^ g.prec * Flt.one : Int) := by
    have := add_one_mid_pos g (2 ^ (g.prec - 1)) (by omega) (by omega)
    rw [if_pos hq, ← hhalf] at this
    simpa using this
  have hend : ∀ v : Int, v = 2 ^ g.prec * Flt.one → Loops pf (.flt g) last (.fin v) := by
    rintro v rfl
    exact .here hl hwall
  have habs : ∀ i : Int, - 2 ^ g.prec ≤ i → i ≤ 2 ^ g.prec → i.natAbs ≤ 2 ^ g.prec := by
    intro i h1 h3
    omega
  induction n with
  | zero =>
    intro j v hj hlo hv hn
    have := Int.mul_le_mul_of_nonneg_right (by omega : (2 : Int) ^ g.prec ≤ j) (Int.le_of_lt hp)
    exact hend v (by omega)
  | succ n ih =>
    intro j v hj hlo hv hn
    rcases Int.lt_or_eq_of_le hv with hlt | heq
    · refine .step (Flt.lt_of_le hv hl) ?_
      have hj2 : j < 2 ^ g.prec := by
        apply Decidable.byContradiction
        intro hc
        have := Int.mul_le_mul_of_nonneg_right (by omega : (2 : Int) ^ g.prec ≤ j) (Int.le_of_lt hp)
        omega
      have hz : (j + 1) * Flt.one ≤ v + Flt.one := by rw [Int.add_mul, Int.one_mul]; omega
      have hlb : (- 2 ^ g.prec) * (Flt.one : Int) ≤ j * Flt.one := Int.mul_le_mul_of_nonneg_right hlo (Int.le_of_lt hp)
      rw [Int.neg_mul] at hlb
      have hdbl : ((2 ^ (g.prec + 1) * Flt.one : Nat) : Int) = 2 ^ g.prec * (Flt.one : Int) + 2 ^ g.prec * (Flt.one : Int) := by
        rw [hpw, Int.natCast_mul, Int.natCast_mul, hcast, Int.mul_assoc]; omega
      have hone : (1 : Int) * Flt.one ≤ 2 ^ g.prec * Flt.one := Int.mul_le_mul_of_nonneg_right (by omega) (Int.le_of_lt hp)
      have hb : (v + (Flt.one : Int)).natAbs ≤ 2 ^ (g.prec + 1) * Flt.one := by omega
      obtain ⟨y, ey, hy⟩ := g.ofUnits_ge (j + 1) (v + Flt.one) (habs _ (by omega) (by omega)) hz hb
      have hyub : y ≤ 2 ^ g.prec * Flt.one := by
        rw [g.ofUnits_eq (v + Flt.one) (g.round_lt_limit _ hb)] at ey
        cases ey
        have hm := g.rnd_mono (by omega : v + (Flt.one : Int) ≤ 2 ^ g.prec * Flt.one + Flt.one)
        have hw : g.ofUnits (2 ^ g.prec * (Flt.one : Int) + Flt.one) = .fin (2 ^ g.prec * Flt.one : Int) := hwall
        have hb2 : (2 ^ g.prec * (Flt.one : Int) + (Flt.one : Int)).natAbs ≤ 2 ^ (g.prec + 1) * Flt.one := by omega
        rw [g.ofUnits_eq _ (g.round_lt_limit _ hb2)] at hw
        rwa [Flt.fin.inj hw] at hm
      have e : NKind.add pf (.flt g) (.fin v) (NKind.one (.flt g)) = .fin y := ey
      rw [e]
      exact ih (j + 1) y hy (by omega) hyub (by simp at hn; omega)
    · exact hend v heq

/-! ## All starts -/

theorem GoFloat.rep_top (g : GoFloat) : g.Rep ((2 ^ (g.prec + 1) * Flt.one : Nat) : Int) := by
  refine ⟨by rw [Int.natAbs_natCast]; exact g.limit_gt, 1, g.prec + 1 + Flt.exp, ?_, ?_, ?_⟩
  · rw [Int.natAbs_natCast, Nat.one_mul, Nat.pow_add _ _ Flt.exp, Flt.one]
  · have := g.prec_two.1; omega
  · have := g.sub_le; omega

theorem not_lt_fin {b : Int} {a : Int} {last : Flt} (h : Flt.lt (.fin a) last = true) (hb : Flt.lt (.fin b) last = false) :
    ∃ l, last = .fin l ∧ a < l ∧ l ≤ b := by
  cases last with
  | fin l => simp [Flt.lt] at *; exact ⟨h, hb⟩
  | inf s => simp [Flt.lt] at *; simp [h] at hb
  | nan => simp [Flt.lt] at h

/-- Floats up to 2^prec: the loop ends or does not. -/
theorem small_start (g : GoFloat) {z : Int} {last : Flt} (h1 : - (2 ^ g.prec * Flt.one : Int) ≤ z) (h2 : z ≤ 2 ^ g.prec * Flt.one)
    (hlt : Flt.lt (.fin z) last = true) :
    (Flt.lt (.fin (2 ^ g.prec * Flt.one : Int)) last = true → Loops pf (.flt g) last (.fin z)) ∧
    (Flt.lt (.fin (2 ^ g.prec * Flt.one : Int)) last = false → ∃ vs, Climb pf (.flt g) last (.fin z) vs) := by
  have hcast : ((2 ^ (g.prec + 1) : Nat) : Int) = 2 ^ g.prec + 2 ^ g.prec := by rw [Nat.pow_succ]; simp; omega
  have hz : (- 2 ^ g.prec : Int) * Flt.one ≤ z := by rw [Int.neg_mul]; exact h1
  constructor
  · intro hl
    exact loops_wall g hl (2 ^ (g.prec + 1)) (- 2 ^ g.prec) z hz (Int.le_refl _) h2 (by rw [hcast]; omega)
  · intro hl
    obtain ⟨l, rfl, _, hle⟩ := not_lt_fin hlt hl
    have hp := Flt.one_pos
    have hpw := two_pow_pos g.prec
    have hub : (2 ^ g.prec) * (Flt.one : Int) ≤ 2 ^ (g.prec + 1) * Flt.one :=
      Int.mul_le_mul_of_nonneg_right (by rw [Int.pow_succ]; omega) (Int.le_of_lt hp)
    exact climb_float (pf := pf) g hle (2 ^ (g.prec + 1)) (- 2 ^ g.prec) z hz (Int.le_refl _) (Int.le_trans h2 hub) (by rw [hcast]; omega)

theorem loops_mul4_pos (g : GoFloat) {q : Nat} {last : Flt} (h1 : 2 ^ g.prec ≤ 2 * q) (h2 : 2 * q ≤ 2 ^ (g.prec + 1)) (hq : q % 2 = 0)
    (hlt : Flt.lt (.fin ((2 * q * Flt.one : Nat) : Int)) last = true) : Loops pf (.flt g) last (.fin ((2 * q * Flt.one : Nat) : Int)) := by
  refine .here hlt ?_
  rcases Nat.lt_or_eq_of_le h2 with h | h
  · have := add_one_mid_pos g q h1 h
    rw [if_pos hq] at this
    exact this
  · rw [h]
    exact absorb_big g.rep_top (by rw [Int.natAbs_natCast]; exact Nat.le_refl _)

theorem loops_mul4_neg (g : GoFloat) {q : Nat} {last : Flt} (h1 : 2 ^ g.prec < 2 * q) (h2 : 2 * q < 2 ^ (g.prec + 1)) (hq : q % 2 = 0)
    (hlt : Flt.lt (.fin (-((2 * q * Flt.one : Nat) : Int))) last = true) : Loops pf (.flt g) last (.fin (-((2 * q * Flt.one : Nat) : Int))) := by
  refine .here hlt ?_
  have := add_one_mid_neg g q h1 h2
  rw [if_pos hq] at this
  exact this

/-- Between 2^prec and 2^(prec+1): a multiple of 4 loops; any other start makes one step and then stops or loops. -/
theorem mid_start_pos (g : GoFloat) {q : Nat} {last : Flt} (h1 : 2 ^ g.prec ≤ 2 * q) (h2 : 2 * q < 2 ^ (g.prec + 1)) (hq : q % 2 = 1)
    (hlt : Flt.lt (.fin ((2 * q * Flt.one : Nat) : Int)) last = true) :
    (Flt.lt (.fin (((2 * q + 2) * Flt.one : Nat) : Int)) last = true → Loops pf (.flt g) last (.fin ((2 * q * Flt.one : Nat) : Int))) ∧
    (Flt.lt (.fin (((2 * q + 2) * Flt.one : Nat) : Int)) last = false → ∃ vs, Climb pf (.flt g) last (.fin ((2 * q * Flt.one : Nat) : Int)) vs) := by
  have hpw : (2 : Nat) ^ (g.prec + 1) = 2 * 2 ^ g.prec := by rw [Nat.pow_succ, Nat.mul_comm]
  have e := add_one_mid_pos g q h1 h2
  rw [if_neg (by omega)] at e
  have e : NKind.add pf (.flt g) (.fin ((2 * q * Flt.one : Nat) : Int)) (NKind.one (.flt g)) = .fin (((2 * q + 2) * Flt.one : Nat) : Int) := e
  constructor
  · intro hl
    refine .step hlt ?_
    rw [e]
    exact loops_mul4_pos g (q := q + 1) (by omega) (by omega) (by omega) hl
  · intro hl
    exact ⟨_, .step hlt (by rw [e]; exact .stop hl)⟩

theorem mid_step_neg (g : GoFloat) {q : Nat} (h1 : 2 ^ g.prec < 2 * q) (h2 : 2 * q < 2 ^ (g.prec + 1)) (hq : q % 2 = 1) :
    NKind.add pf (.flt g) (.fin (-((2 * q * Flt.one : Nat) : Int))) (NKind.one (.flt g)) = .fin (-(((2 * q - 2) * Flt.one : Nat) : Int)) := by
  have e := add_one_mid_neg g q h1 h2
  rw [if_neg (by omega)] at e
  exact e

theorem GoFloat.wall_eq (g : GoFloat) : g.wall = ((2 ^ g.prec * Flt.one : Nat) : Int) := by simp [GoFloat.wall]

theorem GoFloat.wall_two (g : GoFloat) : 2 * g.wall = ((2 ^ (g.prec + 1) * Flt.one : Nat) : Int) := by
  rw [g.wall_eq, Nat.pow_succ, Nat.mul_comm _ 2, Nat.mul_assoc, Int.natCast_mul 2]; rfl

theorem not_mul4 {q o : Nat} (ho : 0 < o) (hq : q % 2 = 1) : ¬ (4 * (o : Int)) ∣ ((2 * q * o : Nat) : Int) := by
  rintro h
  have h : 4 * o ∣ 2 * q * o := by
    have : ((4 * o : Nat) : Int) ∣ ((2 * q * o : Nat) : Int) := by simpa using h
    exact Int.natCast_dvd_natCast.1 this
  have := Nat.dvd_of_mul_dvd_mul_right ho h
  omega

theorem mul4 {q o : Nat} (hq : q % 2 = 0) : (4 * (o : Int)) ∣ ((2 * q * o : Nat) : Int) := by
  obtain ⟨r, rfl⟩ : ∃ r, q = 2 * r := ⟨q / 2, by omega⟩
  refine ⟨r, ?_⟩
  have : 2 * (2 * r) * o = 4 * o * r := by rw [← Nat.mul_assoc, Nat.mul_right_comm]
  rw [this]; simp

/-- Every start: the loop ends exactly if `CountEnds` says so. -/
theorem loops_or_climb (g : GoFloat) {z : Int} {last : Flt} (hz : g.Rep z) (hlt : Flt.lt (.fin z) last = true) :
    (CountEnds g z last → ∃ vs, Climb pf (.flt g) last (.fin z) vs) ∧ (¬ CountEnds g z last → Loops pf (.flt g) last (.fin z)) := by
  have w1 := g.wall_eq
  have w2 := g.wall_two
  have hp := Flt.one_pos
  have hpn : 0 < Flt.one := Nat.two_pow_pos _
  have hpw : (2 : Nat) ^ (g.prec + 1) = 2 * 2 ^ g.prec := by rw [Nat.pow_succ, Nat.mul_comm]
  obtain ⟨p2, _, hhalf, hq0⟩ := g.prec_two
  have hw0 : 0 ≤ g.wall := by rw [w1]; omega
  by_cases hA : -g.wall ≤ z ∧ z ≤ g.wall
  · have hs := small_start (pf := pf) g hA.1 hA.2 hlt
    refine ⟨fun hc => ?_, fun hc => ?_⟩
    · rcases hc with ⟨_, _, h⟩ | ⟨h, _⟩ | ⟨h, _⟩
      · exact hs.2 h
      · omega
      · omega
    · refine hs.1 ?_
      cases hl : Flt.lt (.fin g.wall) last with
      | true => exact hl
      | false => exact absurd (.inl ⟨hA.1, hA.2, hl⟩) hc
  · by_cases hB : (z.natAbs : Int) < 2 * g.wall
    · obtain ⟨q, e, h1, h2⟩ := hz.mid (by omega) (by omega)
      by_cases hneg : z < 0
      · have hzq : z = -((2 * q * Flt.one : Nat) : Int) := by omega
        have hgt : 2 ^ g.prec < 2 * q := by
          apply Nat.lt_of_mul_lt_mul_right (a := Flt.one)
          omega
        rcases Nat.mod_two_eq_zero_or_one q with hq | hq
        · have hl : Loops pf (.flt g) last (.fin z) := by rw [hzq] at hlt ⊢; exact loops_mul4_neg g hgt h2 hq hlt
          refine ⟨fun hc => ?_, fun _ => hl⟩
          exfalso
          rcases hc with ⟨ha, hb, _⟩ | ⟨_, _, h, _⟩ | ⟨h, _⟩
          · exact hA ⟨ha, hb⟩
          · exact h (by rw [hzq, Int.dvd_neg]; exact mul4 hq)
          · have e2 : 2 * q * Flt.one = (2 ^ g.prec + 2) * Flt.one := by rw [Nat.add_mul]; omega
            have := Nat.eq_of_mul_eq_mul_right hpn e2
            omega
        · have hst := mid_step_neg (pf := pf) g hgt h2 hq
          have hle : (2 * q - 2) * Flt.one + 2 * Flt.one = 2 * q * Flt.one := by rw [← Nat.add_mul]; congr 1; omega
          have hz2 : -(((2 * q - 2) * Flt.one : Nat) : Int) = z + 2 * Flt.one := by omega
          have hst : NKind.add pf (.flt g) (.fin z) (NKind.one (.flt g)) = .fin (z + 2 * Flt.one) := by rw [← hz2, hzq]; exact hst
          have hnd : ¬ 4 * (Flt.one : Int) ∣ z := by rw [hzq, Int.dvd_neg]; exact not_mul4 hpn hq
          cases hl2 : Flt.lt (.fin (z + 2 * Flt.one)) last with
          | false =>
            refine ⟨fun _ => ⟨_, .step hlt (by rw [hst]; exact .stop hl2)⟩, fun hc => absurd (.inr (.inl ⟨by omega, hB, hnd, hl2⟩)) hc⟩
          | true =>
            by_cases hnext : 2 * q - 2 = 2 ^ g.prec
            · have hzw : z + 2 * Flt.one = -g.wall := by rw [← hz2, hnext, w1]
              have hs := small_start (pf := pf) g (z := z + 2 * Flt.one) (last := last) (by show -g.wall ≤ _; omega) (by show _ ≤ g.wall; omega) hl2
              refine ⟨fun hc => ?_, fun hc => .step hlt ?_⟩
              · rcases hc with ⟨ha, hb, _⟩ | ⟨_, _, _, h⟩ | ⟨_, h⟩
                · exact absurd ⟨ha, hb⟩ hA
                · rw [hl2] at h; exact absurd h (by decide)
                · obtain ⟨vs, hvs⟩ := hs.2 h
                  exact ⟨_, .step hlt (by rw [hst]; exact hvs)⟩
              · rw [hst]
                refine hs.1 ?_
                cases hl : Flt.lt (.fin g.wall) last with
                | true => exact hl
                | false => exact absurd (.inr (.inr ⟨by omega, hl⟩)) hc
            · have hl : Loops pf (.flt g) last (.fin z) := by
                refine .step hlt ?_
                rw [hst, ← hz2]
                rw [← hz2] at hl2
                have h22 : 2 * q - 2 = 2 * (q - 1) := by omega
                rw [h22] at hl2 ⊢
                exact loops_mul4_neg g (by omega) (by omega) (by omega) hl2
              refine ⟨fun hc => ?_, fun _ => hl⟩
              exfalso
              rcases hc with ⟨ha, hb, _⟩ | ⟨_, _, _, h⟩ | ⟨h, _⟩
              · exact hA ⟨ha, hb⟩
              · rw [hl2] at h; exact absurd h (by decide)
              · have e2 : (2 * q - 2) * Flt.one = 2 ^ g.prec * Flt.one := by omega
                exact hnext (Nat.eq_of_mul_eq_mul_right hpn e2)
      · have hzq : z = ((2 * q * Flt.one : Nat) : Int) := by omega
        rcases Nat.mod_two_eq_zero_or_one q with hq | hq
        · have hl : Loops pf (.flt g) last (.fin z) := by rw [hzq] at hlt ⊢; exact loops_mul4_pos g h1 (by omega) hq hlt
          refine ⟨fun hc => ?_, fun _ => hl⟩
          exfalso
          rcases hc with ⟨ha, hb, _⟩ | ⟨_, _, h, _⟩ | ⟨h, _⟩
          · exact hA ⟨ha, hb⟩
          · exact h (by rw [hzq]; exact mul4 hq)
          · omega
        · have hs := mid_start_pos (pf := pf) g (last := last) h1 h2 hq (by rw [← hzq]; exact hlt)
          have hz2 : (((2 * q + 2) * Flt.one : Nat) : Int) = z + 2 * Flt.one := by rw [Nat.add_mul, hzq]; simp
          rw [hz2, ← hzq] at hs
          refine ⟨fun hc => ?_, fun hc => hs.1 ?_⟩
          · rcases hc with ⟨ha, hb, _⟩ | ⟨_, _, _, h⟩ | ⟨h, _⟩
            · exact absurd ⟨ha, hb⟩ hA
            · exact hs.2 h
            · omega
          · cases hl2 : Flt.lt (.fin (z + 2 * Flt.one)) last with
            | true => rfl
            | false => exact absurd (.inr (.inl ⟨by omega, hB, by rw [hzq]; exact not_mul4 hpn hq, hl2⟩)) hc
    · have hl : Loops pf (.flt g) last (.fin z) := .here hlt (absorb_big hz (by omega))
      refine ⟨fun hc => ?_, fun _ => hl⟩
      exfalso
      rcases hc with ⟨ha, hb, _⟩ | ⟨_, h, _⟩ | ⟨h, _⟩
      · exact hA ⟨ha, hb⟩
      · exact hB h
      · -- the wall is at least 4
        have h4 : 4 * Flt.one ≤ 2 ^ g.prec * Flt.one := Nat.mul_le_mul_right _ (by omega)
        omega

end Stl4go
