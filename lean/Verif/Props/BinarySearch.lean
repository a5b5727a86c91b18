import Verif.Proofs.BinarySearchCost
import Verif.Proofs.Simple
/-!
# Properties C01-C06: `/repo/binary_search.go`

Sortedness is `SortedBy less a` (`Spec/Order.lean`): no later element is less than an earlier one.
-/
namespace Stl4go
variable {T : Type}

/-- C01, comparison-function form. -/
theorem C01_lowerBoundFunc_partition (less : T → T → Bool) (hw : StrictWeak less) (a : List T)
    (hs : SortedBy less a) (v : T) :
    ∃ r, lowerBoundFunc a v less = .ret r ∧ r ≤ a.length ∧
      (∀ i (hi : i < a.length), i < r → less a[i] v = true) ∧
      (∀ i (hi : i < a.length), r ≤ i → less a[i] v = false) := by
  obtain ⟨r, h1, h2, h3⟩ := lowerBoundFunc_spec (less := less) a v
  exact ⟨r, h1, h2, h3 hw hs⟩

/-- C01, operator form. -/
theorem C01_lowerBound_partition [GoOrd T] [LawfulGoOrd T] (a : List T) (hs : SortedBy GoOrd.lt a) (v : T) :
    ∃ r, lowerBound a v = .ret r ∧ r ≤ a.length ∧
      (∀ i (hi : i < a.length), i < r → GoOrd.lt a[i] v = true) ∧
      (∀ i (hi : i < a.length), r ≤ i → GoOrd.lt a[i] v = false) := by
  rw [lowerBound_eq]
  exact C01_lowerBoundFunc_partition _ LawfulGoOrd.weak a hs v

/-- Premises of C01/C02/C03 hold for a slice with duplicates. -/
example : SortedBy (GoOrd.lt : Int → Int → Bool) [1, 3, 3, 3, 9] ∧
    lowerBound [1, 3, 3, 3, 9] (3 : Int) = .ret 1 ∧ upperBound [1, 3, 3, 3, 9] (3 : Int) = .ret 4 ∧
    binarySearch [1, 3, 3, 3, 9] (3 : Int) = .ret (1, true) ∧
    binarySearch [1, 3, 3, 3, 9] (4 : Int) = .ret (-1, false) := by
  refine ⟨?_, by decide, by decide, by decide, by decide⟩
  intro i j hi hj hij
  simp only [List.length_cons, List.length_nil] at hi hj
  have hi' : i = 0 ∨ i = 1 ∨ i = 2 ∨ i = 3 ∨ i = 4 := by omega
  have hj' : j = 0 ∨ j = 1 ∨ j = 2 ∨ j = 3 ∨ j = 4 := by omega
  rcases hi' with rfl | rfl | rfl | rfl | rfl <;> rcases hj' with rfl | rfl | rfl | rfl | rfl <;>
    first | omega | rfl

/-- C02, comparison-function form. -/
theorem C02_upperBoundFunc_partition (less : T → T → Bool) (hw : StrictWeak less) (a : List T)
    (hs : SortedBy less a) (v : T) :
    ∃ r, upperBoundFunc a v less = .ret r ∧ r ≤ a.length ∧
      (∀ i (hi : i < a.length), i < r → less v a[i] = false) ∧
      (∀ i (hi : i < a.length), r ≤ i → less v a[i] = true) := by
  obtain ⟨r, h1, h2, h3⟩ := upperBoundFunc_spec (less := less) a v
  exact ⟨r, h1, h2, h3 hw hs⟩

/-- C02, operator form. -/
theorem C02_upperBound_partition [GoOrd T] [LawfulGoOrd T] (a : List T) (hs : SortedBy GoOrd.lt a) (v : T) :
    ∃ r, upperBound a v = .ret r ∧ r ≤ a.length ∧
      (∀ i (hi : i < a.length), i < r → GoOrd.lt v a[i] = false) ∧
      (∀ i (hi : i < a.length), r ≤ i → GoOrd.lt v a[i] = true) := by
  rw [upperBound_eq]
  exact C02_upperBoundFunc_partition _ LawfulGoOrd.weak a hs v

/-- C03, comparison-function form: a hit is the first element equivalent to `v`; a miss means there is none. -/
theorem C03_binarySearchFunc (less : T → T → Bool) (hw : StrictWeak less) (a : List T)
    (hs : SortedBy less a) (v : T) :
    (∃ i, ∃ hi : i < a.length, binarySearchFunc a v less = .ret ((i : Int), true) ∧ Equiv less a[i] v ∧
        ∀ j (hj : j < a.length), j < i → ¬ Equiv less a[j] v) ∨
    (binarySearchFunc a v less = .ret (-1, false) ∧ ∀ j (hj : j < a.length), ¬ Equiv less a[j] v) := by
  obtain ⟨r, h1, h2, h3, h4⟩ := C01_lowerBoundFunc_partition less hw a hs v
  have hbefore : ∀ j (hj : j < a.length), j < r → ¬ Equiv less a[j] v := by
    intro j hj hjr he
    have := h3 j hj hjr
    rw [he.1] at this; exact absurd this (by decide)
  by_cases hr : r < a.length
  · cases hv : less v a[r] with
    | false =>
      left
      refine ⟨r, hr, ?_, ⟨h4 r hr (Nat.le_refl _), hv⟩, hbefore⟩
      simp [binarySearchFunc, h1, hr, hv]
    | true =>
      right
      refine ⟨by simp [binarySearchFunc, h1, hr, hv], ?_⟩
      intro j hj
      by_cases hjr : j < r
      · exact hbefore j hj hjr
      · intro he
        by_cases hjr' : j = r
        · subst hjr'; have := he.2; rw [hv] at this; exact absurd this (by decide)
        · have := hs r j hr hj (by omega)
          have := hw.negTrans he.2 this
          rw [hv] at this; exact absurd this (by decide)
  · right
    refine ⟨by simp [binarySearchFunc, h1, hr], ?_⟩
    intro j hj
    exact hbefore j hj (by omega)

theorem binarySearch_eq_func [GoOrd T] [LawfulGoOrd T] (a : List T) (hs : SortedBy GoOrd.lt a) (v : T) :
    binarySearch a v = binarySearchFunc a v GoOrd.lt := by
  unfold binarySearch binarySearchFunc
  rw [lowerBound_eq]
  obtain ⟨r, h1, h2, h3, h4⟩ := C01_lowerBoundFunc_partition _ LawfulGoOrd.weak a hs v
  rw [h1]
  simp only [Outcome.ret_bind]
  by_cases hr : r < a.length
  · simp only [hr, if_true, idx_of_lt, Outcome.ret_bind]
    have h4' := h4 r hr (Nat.le_refl _)
    have : GoEq.eq a[r] v = !GoOrd.lt v a[r] := by
      rw [Bool.eq_iff_iff, LawfulGoOrd.eq_iff]; simp [h4']
    rw [this]
  · simp [hr]

/-- C03, operator form (`==` for the match). -/
theorem C03_binarySearch [GoOrd T] [LawfulGoOrd T] (a : List T) (hs : SortedBy GoOrd.lt a) (v : T) :
    (∃ i, ∃ hi : i < a.length, binarySearch a v = .ret ((i : Int), true) ∧ GoEq.eq a[i] v = true ∧
        ∀ j (hj : j < a.length), j < i → GoEq.eq a[j] v = false) ∨
    (binarySearch a v = .ret (-1, false) ∧ ∀ j (hj : j < a.length), GoEq.eq a[j] v = false) := by
  have key : ∀ x y : T, Equiv GoOrd.lt x y ↔ GoEq.eq x y = true := fun x y => (LawfulGoOrd.eq_iff x y).symm
  rw [binarySearch_eq_func a hs v]
  have := C03_binarySearchFunc _ LawfulGoOrd.weak a hs v
  simpa only [key, Bool.not_eq_true] using this

/-- C04: on *any* slice and *any* comparison, the four bounds return an index in `[0,len]`. -/
theorem C04_bounds_total (less : T → T → Bool) (a : List T) (v : T) :
    (∃ r, lowerBoundFunc a v less = .ret r ∧ r ≤ a.length) ∧
    (∃ r, upperBoundFunc a v less = .ret r ∧ r ≤ a.length) := by
  obtain ⟨r, h1, h2, _⟩ := lowerBoundFunc_spec (less := less) a v
  obtain ⟨s, g1, g2, _⟩ := upperBoundFunc_spec (less := less) a v
  exact ⟨⟨r, h1, h2⟩, ⟨s, g1, g2⟩⟩

/-- C04, operator forms; no law is assumed of `<` (NaN allowed). -/
theorem C04_ordered_bounds_total [GoOrd T] (a : List T) (v : T) :
    (∃ r, lowerBound a v = .ret r ∧ r ≤ a.length) ∧ (∃ r, upperBound a v = .ret r ∧ r ≤ a.length) := by
  rw [lowerBound_eq, upperBound_eq]; exact C04_bounds_total _ a v

/-- C04: the searches return either a valid index with `true` or `(-1,false)`, on any input. -/
theorem C04_search_total (less : T → T → Bool) (a : List T) (v : T) :
    ∃ i ok, binarySearchFunc a v less = .ret (i, ok) ∧ (if ok then 0 ≤ i ∧ i < a.length else i = -1) := by
  obtain ⟨r, h1, h2⟩ := (C04_bounds_total less a v).1
  unfold binarySearchFunc
  rw [h1]; simp only [Outcome.ret_bind]
  by_cases hr : r < a.length
  · simp only [hr, if_true, idx_of_lt, Outcome.ret_bind]
    cases less v a[r]
    · exact ⟨_, _, rfl, by simp; omega⟩
    · exact ⟨_, _, rfl, by simp⟩
  · simp only [hr, if_false]; exact ⟨_, _, rfl, by simp⟩

theorem C04_ordered_search_total [GoOrd T] (a : List T) (v : T) :
    ∃ i ok, binarySearch a v = .ret (i, ok) ∧ (if ok then 0 ≤ i ∧ i < a.length else i = -1) := by
  obtain ⟨r, h1, h2⟩ := (C04_ordered_bounds_total a v).1
  unfold binarySearch
  rw [h1]; simp only [Outcome.ret_bind]
  by_cases hr : r < a.length
  · simp only [hr, if_true, idx_of_lt, Outcome.ret_bind]
    cases GoEq.eq a[r] v
    · exact ⟨_, _, rfl, by simp⟩
    · exact ⟨_, _, rfl, by simp; omega⟩
  · simp only [hr, if_false]; exact ⟨_, _, rfl, by simp⟩

/-- C04 is not about sorted input only: an unsorted slice with NaN. -/
example : lowerBound [NanInt.nan, .num 5, .nan, .num 1] (.num 3) = .ret 0 := by decide

/-- C05: the instrumented runs return the result of the plain runs and at most `floor(log2 n)+1` comparisons. -/
theorem C05_lowerBound_cost (less : T → T → Bool) (a : List T) (v : T) :
    ∃ r m, lowerBoundFuncC a v less = .ret (r, m) ∧ lowerBoundFunc a v less = .ret r ∧
      m ≤ if a.length = 0 then 0 else Nat.log2 a.length + 1 := by
  obtain ⟨r, m, h1, h2, _, h4⟩ := lowerBoundFuncLoopC_spec a v less (a.length + 1) 0 a.length 0 (by omega) (by omega)
  exact ⟨r, m, h1, h2, by simpa using h4⟩

theorem C05_upperBound_cost (less : T → T → Bool) (a : List T) (v : T) :
    ∃ r m, upperBoundFuncC a v less = .ret (r, m) ∧ upperBoundFunc a v less = .ret r ∧
      m ≤ if a.length = 0 then 0 else Nat.log2 a.length + 1 := by
  obtain ⟨r, m, h1, h2, _, h4⟩ :=
    lowerBoundFuncLoopC_spec a v (fun x y => !less y x) (a.length + 1) 0 a.length 0 (by omega) (by omega)
  exact ⟨r, m, by rw [upperBoundFuncC, upperBoundFuncLoopC_eq, h1],
    by rw [upperBoundFunc, upperBoundFuncLoop_eq', h2], by simpa using h4⟩

/-- C05 for the operator forms: they run the same loop. -/
theorem C05_ordered_same_loop [GoOrd T] (a : List T) (v : T) :
    lowerBound a v = lowerBoundFunc a v GoOrd.lt ∧ upperBound a v = upperBoundFunc a v GoOrd.lt :=
  ⟨lowerBound_eq a v, upperBound_eq a v⟩

example : lowerBoundFuncC [1, 2, 3, 4, 5, 6, 7] (5 : Int) GoOrd.lt = .ret (4, 3) := by decide

/-- C06: the window between the bounds is exactly the run of elements equal to `v`, and `Count` is its length. -/
theorem C06_equal_range [GoOrd T] [LawfulGoOrd T] (a : List T) (hs : SortedBy GoOrd.lt a) (v : T) :
    ∃ l u, lowerBound a v = .ret l ∧ upperBound a v = .ret u ∧ l ≤ u ∧ u ≤ a.length ∧ u - l = count a v ∧
      ∀ i (hi : i < a.length), (l ≤ i ∧ i < u) ↔ GoEq.eq a[i] v = true := by
  obtain ⟨l, h1, h2, h3, h4⟩ := C01_lowerBound_partition a hs v
  obtain ⟨u, g1, g2, g3, g4⟩ := C02_upperBound_partition a hs v
  have hlu : l ≤ u := by
    by_cases h : l ≤ u
    · exact h
    · have hu : u < a.length := by omega
      have e1 := h3 u hu (by omega)
      have e2 := g4 u hu (Nat.le_refl _)
      rw [LawfulGoOrd.weak.asymm e1] at e2; exact absurd e2 (by decide)
  have hiff : ∀ i (hi : i < a.length), (l ≤ i ∧ i < u) ↔ GoEq.eq a[i] v = true := by
    intro i hi
    rw [LawfulGoOrd.eq_iff]
    constructor
    · rintro ⟨ha, hb⟩; exact ⟨h4 i hi ha, g3 i hi hb⟩
    · rintro ⟨ha, hb⟩
      constructor
      · by_cases h : l ≤ i
        · exact h
        · have := h3 i hi (by omega); rw [ha] at this; exact absurd this (by decide)
      · by_cases h : i < u
        · exact h
        · have := g4 i hi (by omega); rw [hb] at this; exact absurd this (by decide)
  refine ⟨l, u, h1, g1, hlu, g2, ?_, hiff⟩
  rw [count_eq]
  exact (countP_of_window _ a l u hlu g2 (fun i hi => (hiff i hi).symm)).symm

end Stl4go
