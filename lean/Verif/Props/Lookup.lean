import Verif.Proofs.Lookup
/-! # Properties C68-C70: `/repo/lookup.go`, `Count`/`CountIf` of `/repo/compute.go` -/
namespace Stl4go
variable {T : Type}

/-! ## C68 -/

/-- C68: `Max` returns one of its arguments and neither argument is greater. -/
theorem C68_max [GoOrd T] [LawfulGoOrd T] (a b : T) :
    (max2 a b = a ∨ max2 a b = b) ∧ GoOrd.lt (max2 a b) a = false ∧ GoOrd.lt (max2 a b) b = false := by
  unfold max2
  cases h : GoOrd.lt b a with
  | true => simp [LawfulGoOrd.weak.irrefl, LawfulGoOrd.weak.asymm h]
  | false => simp [LawfulGoOrd.weak.irrefl, h]

/-- C68: `Min` returns one of its arguments and neither argument is less. -/
theorem C68_min [GoOrd T] [LawfulGoOrd T] (a b : T) :
    (min2 a b = a ∨ min2 a b = b) ∧ GoOrd.lt a (min2 a b) = false ∧ GoOrd.lt b (min2 a b) = false := by
  unfold min2
  cases h : GoOrd.lt a b with
  | true => simp [LawfulGoOrd.weak.irrefl, LawfulGoOrd.weak.asymm h]
  | false => simp [LawfulGoOrd.weak.irrefl, h]

/-- C68: `MinMax` returns both arguments, the first result not greater than the second. -/
theorem C68_minMax [GoOrd T] [LawfulGoOrd T] (a b : T) :
    (minMax a b = (a, b) ∨ minMax a b = (b, a)) ∧ GoOrd.lt (minMax a b).2 (minMax a b).1 = false := by
  unfold minMax
  cases h : GoOrd.lt a b with
  | true => simp [LawfulGoOrd.weak.asymm h]
  | false => simp [h]

/-- C68: `MaxN` of at least one argument is a member that bounds all arguments from above. -/
theorem C68_maxN [GoOrd T] [LawfulGoOrd T] (a : List T) (h : a ≠ []) :
    ∃ m, maxN a = .ret m ∧ m ∈ a ∧ ∀ x ∈ a, GoOrd.lt m x = false := by
  have hl : 0 < a.length := List.length_pos_iff.2 h
  obtain ⟨m, h1, h2, h3⟩ := maxNLoop_spec a (a.length - 1) 1 a[0] (by omega) (List.getElem_mem hl) (by
    intro j hj hj1
    have : j = 0 := by omega
    subst this; exact LawfulGoOrd.weak.irrefl _)
  refine ⟨m, ?_, h2, ?_⟩
  · simp [maxN, h, hl, h1]
  · intro x hx
    obtain ⟨j, hj, rfl⟩ := List.getElem_of_mem hx
    exact h3 j hj

/-- C68: `MinN` of at least one argument is a member that bounds all arguments from below. -/
theorem C68_minN [GoOrd T] [LawfulGoOrd T] (a : List T) (h : a ≠ []) :
    ∃ m, minN a = .ret m ∧ m ∈ a ∧ ∀ x ∈ a, GoOrd.lt x m = false := by
  have hl : 0 < a.length := List.length_pos_iff.2 h
  obtain ⟨m, h1, h2, h3⟩ := minNLoop_spec a (a.length - 1) 1 a[0] (by omega) (List.getElem_mem hl) (by
    intro j hj hj1
    have : j = 0 := by omega
    subst this; exact LawfulGoOrd.weak.irrefl _)
  refine ⟨m, ?_, h2, ?_⟩
  · simp [minN, h, hl, h1]
  · intro x hx
    obtain ⟨j, hj, rfl⟩ := List.getElem_of_mem hx
    exact h3 j hj

/-- C68: `MinMaxN` returns a lower and an upper bound that are both members. -/
theorem C68_minMaxN [GoOrd T] [LawfulGoOrd T] (a : List T) (h : a ≠ []) :
    ∃ m n, minMaxN a = .ret (m, n) ∧ m ∈ a ∧ n ∈ a ∧ ∀ x ∈ a, GoOrd.lt x m = false ∧ GoOrd.lt n x = false := by
  have hl : 0 < a.length := List.length_pos_iff.2 h
  obtain ⟨m, h1, h2, h3⟩ := C68_minN a h
  obtain ⟨n, g1, g2, g3⟩ := C68_maxN a h
  refine ⟨m, n, ?_, h2, g2, fun x hx => ⟨h3 x hx, g3 x hx⟩⟩
  simp only [minN, maxN, minMaxN, List.length_eq_zero_iff, h, if_false, idx_of_lt hl, Outcome.ret_bind] at *
  exact minMaxNLoop_spec a _ _ _ _ (by omega) h1 g1

/-- C68: the N forms panic exactly on an empty argument list. -/
theorem C68_panic_iff [GoOrd T] [LawfulGoOrd T] (a : List T) :
    (maxN a = .panic ↔ a = []) ∧ (minN a = .panic ↔ a = []) ∧ (minMaxN a = .panic ↔ a = []) := by
  by_cases h : a = []
  · subst h; simp [maxN, minN, minMaxN]
  · obtain ⟨m, h1, _⟩ := C68_minN a h
    obtain ⟨n, g1, _⟩ := C68_maxN a h
    obtain ⟨p, q, k1, _⟩ := C68_minMaxN a h
    simp [h, h1, g1, k1]

/-- C68: of several greatest elements `MaxN` returns the first, of several least ones `MinN` the first, and `MinMaxN` likewise. (They may be told apart, as -0 and +0.) -/
theorem C68_first [GoOrd T] [LawfulGoOrd T] (a : List T) (h : a ≠ []) :
    ∃ p q, ∃ (hp : p < a.length) (hq : q < a.length), minN a = .ret a[p] ∧ maxN a = .ret a[q] ∧ minMaxN a = .ret (a[p], a[q]) ∧
      (∀ j (hj : j < a.length), j < p → GoOrd.lt a[p] a[j] = true) ∧ (∀ j (hj : j < a.length), GoOrd.lt a[j] a[p] = false) ∧
      (∀ j (hj : j < a.length), j < q → GoOrd.lt a[j] a[q] = true) ∧ ∀ j (hj : j < a.length), GoOrd.lt a[q] a[j] = false := by
  have hl : 0 < a.length := List.length_pos_iff.2 h
  have W := LawfulGoOrd.weak (T := T)
  obtain ⟨p, hp, a1, a2, a3⟩ := minNLoop_first a (a.length - 1) 1 0 (by omega) (by omega) hl (fun j _ hj => absurd hj (Nat.not_lt_zero _))
    (fun j hj hj1 => by obtain rfl : j = 0 := (by omega); exact W.irrefl _)
  obtain ⟨q, hq, b1, b2, b3⟩ := maxNLoop_first a (a.length - 1) 1 0 (by omega) (by omega) hl (fun j _ hj => absurd hj (Nat.not_lt_zero _))
    (fun j hj hj1 => by obtain rfl : j = 0 := (by omega); exact W.irrefl _)
  refine ⟨p, q, hp, hq, ?_, ?_, ?_, a2, a3, b2, b3⟩
  · simp only [minN, List.length_eq_zero_iff, h, if_false, idx_of_lt hl, Outcome.ret_bind, a1]
  · simp only [maxN, List.length_eq_zero_iff, h, if_false, idx_of_lt hl, Outcome.ret_bind, b1]
  · simp only [minMaxN, List.length_eq_zero_iff, h, if_false, idx_of_lt hl, Outcome.ret_bind]
    exact minMaxNLoop_spec _ _ _ _ _ (by omega) a1 b1

/-- C68: of two equal ones `Max` and `Min` return the second, and `MinMax` swaps them. -/
theorem C68_equal [GoOrd T] [LawfulGoOrd T] (a b : T) (h : GoEq.eq a b = true) : max2 a b = b ∧ min2 a b = b ∧ minMax a b = (b, a) := by
  rw [LawfulGoOrd.eq_iff] at h
  simp [max2, min2, minMax, h.1, h.2]

example : minMaxN [3, -1, 7, 7, (2 : Int)] = .ret (-1, 7) ∧ maxN ["b", "c", "a"] = .ret "c" := by decide

/-! ## C69 -/

/-- C69: `FindIf`. -/
theorem C69_findIf (a : List T) (cond : T → Bool) :
    (∃ i, ∃ hi : i < a.length, findIf a cond = ((i : Int), true) ∧ cond a[i] = true ∧
        ∀ j (hj : j < a.length), j < i → cond a[j] = false) ∨
    (findIf a cond = (-1, false) ∧ ∀ x ∈ a, cond x = false) := by
  simpa [findIf] using findIfLoop_spec cond a 0

/-- C69: `Find` (any `==`, no law needed). -/
theorem C69_find [GoEq T] (a : List T) (x : T) :
    (∃ i, ∃ hi : i < a.length, find a x = ((i : Int), true) ∧ GoEq.eq a[i] x = true ∧
        ∀ j (hj : j < a.length), j < i → GoEq.eq a[j] x = false) ∨
    (find a x = (-1, false) ∧ ∀ y ∈ a, GoEq.eq y x = false) := by
  rw [find, findLoop_eq]; exact C69_findIf a _

/-- C69: `Index`. -/
theorem C69_index [GoEq T] (a : List T) (x : T) :
    (∃ i, ∃ hi : i < a.length, index a x = (i : Int) ∧ GoEq.eq a[i] x = true ∧
        ∀ j (hj : j < a.length), j < i → GoEq.eq a[j] x = false) ∨
    (index a x = -1 ∧ ∀ y ∈ a, GoEq.eq y x = false) := by
  rw [index, indexLoop_eq]
  rcases findIfLoop_spec (fun v => GoEq.eq v x) a 0 with ⟨i, hi, h1, h2, h3⟩ | ⟨h1, h2⟩
  · left; exact ⟨i, hi, by simp [h1], h2, h3⟩
  · right; exact ⟨by simp [h1], h2⟩

example : find [4, 8, 8, (1 : Int)] 8 = (1, true) ∧ find [4, (1 : Int)] 9 = (-1, false) := by decide

/-! ## C70 -/

/-- C70: `AllOf`. -/
theorem C70_allOf (a : List T) (pred : T → Bool) : allOf a pred = true ↔ ∀ x ∈ a, pred x = true := by
  induction a with
  | nil => simp [allOf]
  | cons v a ih => cases h : pred v <;> simp [allOf, h, ih]

/-- C70: `AnyOf`. -/
theorem C70_anyOf (a : List T) (pred : T → Bool) : anyOf a pred = true ↔ ∃ x ∈ a, pred x = true := by
  induction a with
  | nil => simp [anyOf]
  | cons v a ih => cases h : pred v <;> simp [anyOf, h, ih]

/-- C70: `NoneOf`. -/
theorem C70_noneOf (a : List T) (pred : T → Bool) : noneOf a pred = true ↔ ∀ x ∈ a, pred x = false := by
  have := C70_anyOf a pred
  unfold noneOf
  cases h : anyOf a pred <;> simp_all

/-- C70: `Count` is the number of indices whose element equals `x`. -/
theorem C70_count [GoEq T] (a : List T) (x : T) :
    count a x = (a.filter (fun v => GoEq.eq v x)).length := by
  rw [count_eq, List.countP_eq_length_filter]

/-- C70: `CountIf` is the number of elements satisfying `pred`. -/
theorem C70_countIf (a : List T) (pred : T → Bool) : countIf a pred = (a.filter pred).length := by
  rw [countIf, countIfLoop_eq, List.countP_eq_length_filter]; omega

example : count [3, 1, 3, (3 : Int)] 3 = 3 ∧ allOf [2, 4] (fun x : Nat => x % 2 == 0) = true := by decide

end Stl4go
