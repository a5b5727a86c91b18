import Verif.Spec.AverageBetween
import Verif.Proofs.FloatError
/-! # Helper lemmas for C156 -/
namespace Stl4go
variable {pf : Platform}

/-- Some element is at most the mean and some is at least the mean. -/
theorem mean_between : ∀ (a : List Int), a ≠ [] → (∃ x ∈ a, x * a.length ≤ a.sum) ∧ ∃ y ∈ a, a.sum ≤ y * a.length := by
  have low : ∀ (a : List Int) (x : Int), (∀ z ∈ a, x ≤ z) → x * a.length ≤ a.sum := by
    intro a x
    induction a with
    | nil => simp
    | cons z a ih =>
      intro h
      have h1 := ih (fun w hw => h w (List.mem_cons_of_mem _ hw))
      have h2 := h z List.mem_cons_self
      rw [List.length_cons, List.sum_cons]
      push_cast
      linarith
  have high : ∀ (a : List Int) (x : Int), (∀ z ∈ a, z ≤ x) → a.sum ≤ x * a.length := by
    intro a x
    induction a with
    | nil => simp
    | cons z a ih =>
      intro h
      have h1 := ih (fun w hw => h w (List.mem_cons_of_mem _ hw))
      have h2 := h z List.mem_cons_self
      rw [List.length_cons, List.sum_cons]
      push_cast
      linarith
  have least : ∀ a : List Int, a ≠ [] → ∃ x ∈ a, ∀ z ∈ a, x ≤ z := by
    intro a
    induction a with
    | nil => exact fun h => absurd rfl h
    | cons z a ih =>
      intro _
      by_cases ha : a = []
      · subst ha
        exact ⟨z, List.mem_cons_self, fun w hw => by rw [List.mem_singleton.1 hw]⟩
      · obtain ⟨x, hx, hl⟩ := ih ha
        by_cases hxz : x ≤ z
        · refine ⟨x, List.mem_cons_of_mem _ hx, fun w hw => ?_⟩
          rcases List.mem_cons.1 hw with rfl | hw
          · exact hxz
          · exact hl w hw
        · refine ⟨z, List.mem_cons_self, fun w hw => ?_⟩
          rcases List.mem_cons.1 hw with rfl | hw
          · exact le_refl _
          · exact (not_le.1 hxz).le.trans (hl w hw)
  have most : ∀ a : List Int, a ≠ [] → ∃ x ∈ a, ∀ z ∈ a, z ≤ x := by
    intro a ha
    obtain ⟨x, hx, h⟩ := least (a.map (fun z => -z)) (by simpa using ha)
    obtain ⟨y, hy, rfl⟩ := List.mem_map.1 hx
    refine ⟨y, hy, fun z hz => ?_⟩
    have := h (-z) (List.mem_map.2 ⟨z, hz, rfl⟩)
    omega
  intro a ha
  obtain ⟨x, hx, h1⟩ := least a ha
  obtain ⟨y, hy, h2⟩ := most a ha
  exact ⟨⟨x, hx, low a x h1⟩, ⟨y, hy, high a y h2⟩⟩

/-- A nearest float is on the same side of every float as the number. -/
theorem GoFloat.Nearest.ge {g : GoFloat} {num den r x : Int} (h : g.Nearest num den r) (hd : 0 < den) (hx : g.Rep x) (hle : x * den ≤ num) : x ≤ r := by
  by_contra hc
  have h1 := h.2 x hx
  have h2 : r * den < x * den := Int.mul_lt_mul_of_pos_right (by omega) hd
  generalize r * den = a at *
  generalize x * den = b at *
  omega

theorem GoFloat.Nearest.le {g : GoFloat} {num den r x : Int} (h : g.Nearest num den r) (hd : 0 < den) (hx : g.Rep x) (hle : num ≤ x * den) : r ≤ x := by
  by_contra hc
  have h1 := h.2 x hx
  have h2 : x * den < r * den := Int.mul_lt_mul_of_pos_right (by omega) hd
  generalize r * den = a at *
  generalize x * den = b at *
  omega

/-- Doubling: exact, or an overflow. -/
theorem rep_double {x : Int} (hx : GoFloat.float64.Rep x) (hl : (2 * x).natAbs < GoFloat.float64.limit) : GoFloat.float64.Rep (2 * x) := by
  obtain ⟨_, m, e, h1, h2, h3⟩ := hx
  refine ⟨hl, m, e + 1, ?_, h2, Nat.zero_le _⟩
  rw [Int.natAbs_mul, h1, pow_succ]
  show 2 * _ = _
  ring

theorem limit_rnd (z : Int) (h : (GoFloat.float64.limit : Int) ≤ z) : (GoFloat.float64.limit : Int) ≤ GoFloat.float64.rnd z := by
  have h1 := GoFloat.float64.rnd_mono h
  have h2 : GoFloat.float64.rnd GoFloat.float64.limit = GoFloat.float64.limit := by
    unfold GoFloat.rnd
    rw [if_neg (by omega), Int.natAbs_natCast]
    have h3 : ∀ L : Nat, (∃ j, L = 2 ^ j) → roundFrac 53 0 L 1 = L := by
      rintro _ ⟨j, rfl⟩
      exact roundFrac_two_pow 53 0 j (by decide) (Nat.zero_le _)
    have h4 : roundFrac GoFloat.float64.prec GoFloat.float64.sub GoFloat.float64.limit 1 = GoFloat.float64.limit := h3 _ ⟨Flt.exp + 1024, rfl⟩
    rw [h4]
  omega

theorem rnd_neg (z : Int) : GoFloat.float64.rnd (-z) = - GoFloat.float64.rnd z := by
  unfold GoFloat.rnd
  rw [Int.natAbs_neg]
  generalize hq : roundFrac GoFloat.float64.prec GoFloat.float64.sub z.natAbs 1 = q
  by_cases h0 : z = 0
  · subst h0
    have : roundFrac GoFloat.float64.prec GoFloat.float64.sub (0 : Int).natAbs 1 = 0 := by decide +kernel
    rw [this] at hq
    subst hq
    rfl
  · split <;> split <;> omega

/-- The rounded sum of two numbers is between their doubles. -/
theorem two_low {x y : Int} (hx : GoFloat.float64.Rep x) (h : x ≤ y) (hl : (GoFloat.float64.rnd (x + y)).natAbs < GoFloat.float64.limit) :
    2 * x ≤ GoFloat.float64.rnd (x + y) := by
  by_cases h1 : (2 * x).natAbs < GoFloat.float64.limit
  · have h2 := GoFloat.float64.rnd_mono (show 2 * x ≤ x + y by omega)
    rwa [(rep_double hx h1).rnd_eq] at h2
  · by_cases h2 : 0 ≤ x
    · have h3 := limit_rnd (x + y) (by omega)
      omega
    · omega

theorem two_high {x y : Int} (hy : GoFloat.float64.Rep y) (h : x ≤ y) (hl : (GoFloat.float64.rnd (x + y)).natAbs < GoFloat.float64.limit) :
    GoFloat.float64.rnd (x + y) ≤ 2 * y := by
  have hn : GoFloat.float64.Rep (-y) := by
    obtain ⟨h0, m, e, h1, h2, h3⟩ := hy
    exact ⟨by rwa [Int.natAbs_neg], m, e, by rwa [Int.natAbs_neg], h2, h3⟩
  have e : -y + -x = -(x + y) := by omega
  have h1 := two_low (x := -y) (y := -x) hn (by omega) (by rw [e, rnd_neg, Int.natAbs_neg]; exact hl)
  rw [e, rnd_neg] at h1
  omega

/-- The division of a sum by a length, as a nearest float. -/
theorem div_nearest (q r : Int) (n : Nat) (hn : 0 < n) (h : GoFloat.float64.div (.fin q) (.fin ((n : Int) * Flt.one)) = .fin r) :
    GoFloat.float64.Nearest q n r := by
  have hO : (0 : Int) < Flt.one := Flt.one_pos
  have hb : (n : Int) * Flt.one ≠ 0 := Int.mul_ne_zero (by omega) (by omega)
  have hnn : ¬ (n : Int) * Flt.one < 0 := by
    have : (0 : Int) ≤ n * Flt.one := Int.mul_nonneg (by omega) hO.le
    omega
  have hr : roundFrac GoFloat.float64.prec GoFloat.float64.sub (q.natAbs * Flt.one) ((n : Int) * Flt.one).natAbs =
      roundFrac GoFloat.float64.prec GoFloat.float64.sub q.natAbs (n : Int).natAbs := by
    rw [Int.natAbs_mul, Int.natAbs_natCast, Int.natAbs_natCast]
    exact roundFrac_scale 53 0 q.natAbs n Flt.one (Nat.two_pow_pos _)
  simp only [GoFloat.div, if_neg hb, GoFloat.round, hr, decide_eq_false hnn, Bool.bne_false] at h
  by_cases hl : roundFrac GoFloat.float64.prec GoFloat.float64.sub q.natAbs (n : Int).natAbs < GoFloat.float64.limit
  · obtain ⟨r', h1, h2⟩ := GoFloat.float64.round_nearest q n (by exact_mod_cast hn) hl
    unfold GoFloat.round at h1
    rw [h1] at h
    cases h
    exact h2
  · rw [if_neg hl] at h
    exact nomatch h

end Stl4go
