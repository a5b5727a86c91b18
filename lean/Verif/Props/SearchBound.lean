import Verif.Proofs.SearchBound
/-! # Property C188: how many comparisons a search takes (`/repo/binary_search.go`) -/
namespace Stl4go
variable {T : Type}

/-- C188: whatever the elements and the answers of the comparison function, a search in `n` elements takes at least `⌊log₂(n+1)⌋` calls and at most `⌊log₂ n⌋ + 1`, which is at most one more.
`BinarySearchFunc` makes the calls of `LowerBoundFunc`, and one more unless that has found the end. -/
theorem C188_calls (l : T → T → Bool) (a : Sl) (v : T) (m : Mem T) (t : Nat) :
    (∃ r c, lowerBoundFuncE a v (countedCmp l) ⟨m, t⟩ = .ok r ⟨m, t + c⟩ ∧ Nat.log2 (a.len + 1) ≤ c ∧ c ≤ mostCalls a.len ∧
      ∃ b, binarySearchFuncE a v (countedCmp l) ⟨m, t⟩ = .ok b ⟨m, t + c + if r < a.len then 1 else 0⟩) ∧
    (∃ r c, upperBoundFuncE a v (countedCmp l) ⟨m, t⟩ = .ok r ⟨m, t + c⟩ ∧ Nat.log2 (a.len + 1) ≤ c ∧ c ≤ mostCalls a.len) ∧
    mostCalls a.len ≤ Nat.log2 (a.len + 1) + 1 := by
  refine ⟨?_, ?_, ?_⟩
  · have e := lower_bisect (a := a) l v m (a.len + 1) 0 a.len t (by omega) (by omega)
    have h := bisect_bounds (fun i => l (m.cell (a.off + i)) v) (a.len + 1) 0 a.len (by omega)
    refine ⟨_, _, e, h.1, h.2, ?_⟩
    have e : lowerBoundFuncE a v (countedCmp l) ⟨m, t⟩ = _ := e
    simp only [binarySearchFuncE, GoM.bind_def, e]
    by_cases hr : (bisect (fun i => l (m.cell (a.off + i)) v) (a.len + 1) 0 a.len).1 < a.len
    · rw [if_pos hr, if_pos hr]
      simp only [GoM.bind_def]
      rw [CS.on_get' hr]
      simp only [countedCmp]
      cases l v (m.cell (a.off + (bisect (fun i => l (m.cell (a.off + i)) v) (a.len + 1) 0 a.len).1)) with
      | false => exact ⟨_, rfl⟩
      | true => exact ⟨_, rfl⟩
    · rw [if_neg hr, if_neg hr]
      exact ⟨_, rfl⟩
  · have e := upper_bisect (a := a) l v m (a.len + 1) 0 a.len t (by omega) (by omega)
    have h := bisect_bounds (fun i => !l v (m.cell (a.off + i))) (a.len + 1) 0 a.len (by omega)
    exact ⟨_, _, e, h.1, h.2⟩
  · unfold mostCalls
    have := log2_mono' (show a.len ≤ a.len + 1 by omega)
    split <;> omega

/-- C188: both numbers are reached: the most calls if all elements are after the place looked for, the fewest if all are before it. -/
theorem C188_extremes (l : T → T → Bool) (a : Sl) (v : T) (m : Mem T) (t : Nat) :
    ((∀ x ∈ a.read m, l x v = false) → ∃ r, lowerBoundFuncE a v (countedCmp l) ⟨m, t⟩ = .ok r ⟨m, t + mostCalls a.len⟩) ∧
    ((∀ x ∈ a.read m, l x v = true) → ∃ r, lowerBoundFuncE a v (countedCmp l) ⟨m, t⟩ = .ok r ⟨m, t + Nat.log2 (a.len + 1)⟩) ∧
    ((∀ x ∈ a.read m, l v x = true) → ∃ r, upperBoundFuncE a v (countedCmp l) ⟨m, t⟩ = .ok r ⟨m, t + mostCalls a.len⟩) ∧
    ((∀ x ∈ a.read m, l v x = false) → ∃ r, upperBoundFuncE a v (countedCmp l) ⟨m, t⟩ = .ok r ⟨m, t + Nat.log2 (a.len + 1)⟩) := by
  have hin : ∀ i, i < 0 + a.len → m.cell (a.off + i) ∈ a.read m := fun i hi => by
    rw [Sl.read]
    exact List.mem_map.2 ⟨i, List.mem_range.2 (by omega), rfl⟩
  refine ⟨fun h => ?_, fun h => ?_, fun h => ?_, fun h => ?_⟩
  · have e := lower_bisect (a := a) l v m (a.len + 1) 0 a.len t (by omega) (by omega)
    rw [bisect_left _ _ _ _ (by omega) (fun i _ hi => h _ (hin i hi))] at e
    exact ⟨_, e⟩
  · have e := lower_bisect (a := a) l v m (a.len + 1) 0 a.len t (by omega) (by omega)
    rw [bisect_right _ _ _ _ (by omega) (fun i _ hi => h _ (hin i hi))] at e
    exact ⟨_, e⟩
  · have e := upper_bisect (a := a) l v m (a.len + 1) 0 a.len t (by omega) (by omega)
    rw [bisect_left _ _ _ _ (by omega) (fun i _ hi => by rw [h _ (hin i hi)]; rfl)] at e
    exact ⟨_, e⟩
  · have e := upper_bisect (a := a) l v m (a.len + 1) 0 a.len t (by omega) (by omega)
    rw [bisect_right _ _ _ _ (by omega) (fun i _ hi => by rw [h _ (hin i hi)]; rfl)] at e
    exact ⟨_, e⟩

/-- C188: no search can do with fewer in the worst case. Whatever way to search finds the place of a value in every ascending list of `n` integers by comparing elements and the value,
there are a list and a value for which it asks at least as often as `LowerBoundFunc` ever does in `n` elements. -/
theorem C188_optimal {p : SearchProg} {n : Nat} (h : p.FindsLowerBound n) :
    ∃ (xs : List Int) (v : Int) (r c : Nat), xs.length = n ∧ xs.Pairwise (· < ·) ∧ p.run (fun x y => decide (x < y)) xs v = some (r, c) ∧ mostCalls n ≤ c := by
  obtain ⟨c, k, -, e, hk⟩ := SearchProg.worst (p := p) (n := n) fun c hc => by
    obtain ⟨k, e⟩ := h (odds n) (2 * (c : Int)) (by simp [odds]) (odds_ascending n)
    rw [odds_count n c hc] at e
    exact ⟨k, e⟩
  refine ⟨odds n, 2 * (c : Int), c, k, by simp [odds], odds_ascending n, e, ?_⟩
  unfold mostCalls
  split
  · exact Nat.zero_le _
  · have : Nat.log2 n < k := (Nat.log2_lt (by omega)).2 (by omega)
    omega

/-- C188: the same for the place behind the value, which `UpperBoundFunc` finds. -/
theorem C188_optimal_upper {p : SearchProg} {n : Nat} (h : p.FindsUpperBound n) :
    ∃ (xs : List Int) (v : Int) (r c : Nat), xs.length = n ∧ xs.Pairwise (· < ·) ∧ p.run (fun x y => decide (x < y)) xs v = some (r, c) ∧ mostCalls n ≤ c := by
  obtain ⟨c, k, -, e, hk⟩ := SearchProg.worst (p := p) (n := n) fun c hc => by
    obtain ⟨k, e⟩ := h (odds n) (2 * (c : Int)) (by simp [odds]) (odds_ascending n)
    have h1 : (odds n).countP (fun x => decide (x ≤ 2 * (c : Int))) = (odds n).countP (fun x => decide (x < 2 * (c : Int))) := by
      apply List.countP_congr
      intro x hx
      obtain ⟨i, -, rfl⟩ := List.mem_map.1 hx
      simp only [decide_eq_true_eq]; omega
    rw [h1, odds_count n c hc] at e
    exact ⟨k, e⟩
  refine ⟨odds n, 2 * (c : Int), c, k, by simp [odds], odds_ascending n, e, ?_⟩
  unfold mostCalls
  split
  · exact Nat.zero_le _
  · have : Nat.log2 n < k := (Nat.log2_lt (by omega)).2 (by omega)
    omega

/-- C188: the way `LowerBoundFunc` searches is such a program for every `n`, and asks exactly as often as `LowerBoundFunc` calls the comparison function. -/
theorem C188_program (n : Nat) :
    (lowerBoundProg (n + 1) 0 n).FindsLowerBound n ∧
    ∀ (l : T → T → Bool) (a : Sl) (v : T) (m : Mem T) (t : Nat), a.len = n →
      ∃ r c, (lowerBoundProg (n + 1) 0 n).run l (a.read m) v = some (r, c) ∧ lowerBoundFuncE a v (countedCmp l) ⟨m, t⟩ = .ok r ⟨m, t + c⟩ := by
  refine ⟨fun xs v hl ha => ?_, fun l a v m t hn => ?_⟩
  · obtain ⟨c, e, -⟩ := lowerBoundProg_finds n xs v hl ha
    exact ⟨c, e⟩
  · subst hn
    have hlen : (a.read m).length = a.len := by simp [Sl.read]
    exact ⟨_, _, lowerBoundProg_run l (a.read m) v (fun i => l (m.cell (a.off + i)) v) (fun i x h => by
      have hi : i < a.len := by rw [← hlen]; exact (List.getElem?_eq_some_iff.1 h).1
      have : x = m.cell (a.off + i) := by simpa [Sl.read, hi, eq_comm] using h
      rw [this]) (a.len + 1) 0 a.len (by omega) (by omega), lower_bisect (a := a) l v m (a.len + 1) 0 a.len t (by omega) (by omega)⟩

/-- Searching in two elements: first the second, then the first. -/
def searchTwo : SearchProg := .ask (some 1) none fun b => if b then .found 2 else .ask (some 0) none fun b => if b then .found 1 else .found 0

/-- It finds the place, so the hypothesis of `C188_optimal` can be met. -/
example : searchTwo.FindsLowerBound 2 := by
  intro xs v hl ha
  match xs, hl with
  | [x, y], _ =>
    have hxy : x < y := by simpa using ha
    by_cases h1 : y < v
    · exact ⟨1, by simp [searchTwo, SearchProg.run, h1, show x < v by omega]⟩
    · by_cases h2 : x < v
      · exact ⟨2, by simp [searchTwo, SearchProg.run, h1, h2]⟩
      · exact ⟨2, by simp [searchTwo, SearchProg.run, h1, h2]⟩

/-- The same for the place behind the value. -/
def searchTwoUpper : SearchProg := .ask none (some 1) fun b => if b then .ask none (some 0) fun b => if b then .found 0 else .found 1 else .found 2

/-- So the hypothesis of `C188_optimal_upper` can be met. -/
example : searchTwoUpper.FindsUpperBound 2 := by
  intro xs v hl ha
  match xs, hl with
  | [x, y], _ =>
    have hxy : x < y := by simpa using ha
    by_cases h1 : v < y
    · by_cases h2 : v < x
      · exact ⟨2, by simp [searchTwoUpper, SearchProg.run, h1, h2, show ¬ y ≤ v by omega, show ¬ x ≤ v by omega]⟩
      · exact ⟨2, by simp [searchTwoUpper, SearchProg.run, h1, h2, show ¬ y ≤ v by omega, show x ≤ v by omega]⟩
    · exact ⟨1, by simp [searchTwoUpper, SearchProg.run, h1, show y ≤ v by omega, show x ≤ v by omega]⟩

/-- Six elements: from 2 to 3 calls. -/
example : [0, 4, 9].map (fun v => match lowerBoundFuncE ⟨1, 6, 6⟩ v (countedCmp fun x y => decide (x < y)) (⟨⟨fun k => k, 8⟩, 0⟩ : CS Nat Nat) with
    | .ok r s => (r, s.st)
    | _ => (9, 9)) = [(0, 3), (3, 3), (6, 2)] := by decide +kernel

end Stl4go
