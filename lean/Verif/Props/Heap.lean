import Verif.Proofs.HeapCost
/-!
# Properties C07-C14, C82: `/repo/heap.go`

The heap order is `IsHeap less h` (`Spec/Heap.lean`): no element is less than its parent. "Same elements" is
`List.Perm`.
-/
namespace Stl4go
variable {T : Type}

/-- C07, comparison-function form. -/
theorem C07_makeHeapFunc (less : T → T → Bool) (hw : StrictWeak less) (a : List T) :
    ∃ h, makeHeapFunc a less = .ret h ∧ h.Perm a ∧ IsHeap less h :=
  makeHeapFunc_spec hw a

/-- C07, operator form. -/
theorem C07_makeMinHeap [GoOrd T] [LawfulGoOrd T] (a : List T) :
    ∃ h, makeMinHeap a = .ret h ∧ h.Perm a ∧ IsHeap GoOrd.lt h := by
  rw [makeMinHeap_eq]; exact makeHeapFunc_spec LawfulGoOrd.weak a

example : makeMinHeap [5, 3, 9, 1, 1, 7] = .ret [(1 : Int), 1, 7, 3, 5, 9] := by decide
/-- The comparison may be any strict weak order: here by absolute value, descending. -/
example : makeHeapFunc [1, -4, 3, 4, 0] (fun a b : Int => decide (b.natAbs < a.natAbs)) = .ret [-4, 4, 3, 1, 0] := by
  decide
example : StrictWeak (fun a b : Int => decide (b.natAbs < a.natAbs)) :=
  strictWeak_of_linear (fun a => -(a.natAbs : Int)) (fun a b => by simp)

/-- C08: the check is exact (no assumption on the order: it holds with NaNs too). -/
theorem C08_isMinHeap_iff [GoOrd T] (a : List T) :
    ∃ b, isMinHeap a = .ret b ∧
      (b = true ↔ ∀ i (hi : i < a.length), 0 < i → GoOrd.lt a[i] (a[(i - 1) / 2]'(by omega)) = false) :=
  isMinHeap_spec a

/-- C08: a slice accepted by `IsMinHeap` has a minimum at index 0. -/
theorem C08_isMinHeap_root [GoOrd T] [LawfulGoOrd T] (x : T) (xs : List T) (h : isMinHeap (x :: xs) = .ret true) :
    ∀ y ∈ x :: xs, GoOrd.lt y x = false := by
  obtain ⟨b, h1, h2⟩ := isMinHeap_spec (x :: xs)
  rw [h] at h1; cases h1
  exact IsHeap.root_min LawfulGoOrd.weak (h2.1 rfl)

/-- C08: `IsMinHeap` accepts everything that `MakeMinHeap` produces. -/
theorem C08_isMinHeap_makeMinHeap [GoOrd T] [LawfulGoOrd T] (a : List T) :
    (makeMinHeap a >>= isMinHeap) = .ret true := by
  obtain ⟨h, h1, -, h2⟩ := C07_makeMinHeap a
  obtain ⟨b, h3, h4⟩ := isMinHeap_spec h
  rw [h1, Outcome.ret_bind, h3, h4.2 h2]

example : isMinHeap [(1 : Int), 1, 7, 3, 5, 9] = .ret true ∧ isMinHeap [(1 : Int), 2, 0] = .ret false ∧
    isMinHeap ([] : List Int) = .ret true := by decide

/-- C09 is FALSE of the code: `IsHeapFunc` rejects the heap `[1,1]`, which `MakeHeapFunc` itself produces from `[1,1]`,
because `/repo/heap.go:122` tests `!less(parent, child)` instead of `less(child, parent)`. -/
theorem C09_counterexample :
    ∃ (less : Int → Int → Bool) (a h : List Int), StrictWeak less ∧ IsHeap less a ∧
      makeHeapFunc a less = .ret h ∧ isHeapFunc h less = .ret false ∧ isHeapFunc a less = .ret false := by
  refine ⟨fun a b => decide (a < b), [1, 1], [1, 1], strictWeak_of_linear id (fun _ _ => rfl), ?_, by decide, by decide,
    by decide⟩
  intro i hi h0
  simp only [List.length_cons, List.length_nil] at hi
  have : i = 1 := by omega
  subst this; rfl

/-- What holds for C09. Full statement: `isHeapFunc a less = .ret true ↔ IsHeap less a`. Proved: the answer is true
exactly when every parent is strictly less than its children, so a positive answer is right, and the answer is exact
whenever no element is equivalent to its parent. Missing: heaps with an element equivalent to its parent. -/
theorem C09_isHeapFunc_partial (less : T → T → Bool) (hw : StrictWeak less) (a : List T) :
    ∃ b, isHeapFunc a less = .ret b ∧
      (b = true ↔ ∀ i (hi : i < a.length), 0 < i → less (a[(i - 1) / 2]'(by omega)) a[i] = true) ∧
      (b = true → IsHeap less a) ∧
      ((∀ i (hi : i < a.length), 0 < i → ¬ Equiv less a[i] (a[(i - 1) / 2]'(by omega))) → IsHeap less a → b = true) := by
  obtain ⟨b, h1, h2⟩ := isHeapFunc_spec (less := less) a
  refine ⟨b, h1, h2, ?_, ?_⟩
  · intro hb i hi h0
    exact hw.asymm (h2.1 hb i hi h0)
  · intro hd H
    rw [h2]
    intro i hi h0
    cases hl : less (a[(i - 1) / 2]'(by omega)) a[i] with
    | true => rfl
    | false => exact absurd ⟨H i hi h0, hl⟩ (hd i hi h0)

example : isHeapFunc [1, 2, 3, 4] (fun a b : Int => decide (a < b)) = .ret true := by decide

/-- C10, comparison-function form. -/
theorem C10_pushHeapFunc (less : T → T → Bool) (hw : StrictWeak less) (h : List T) (v : T) (H : IsHeap less h) :
    ∃ h', pushHeapFunc h v less = .ret h' ∧ h'.Perm (v :: h) ∧ IsHeap less h' :=
  pushHeapFunc_spec hw h v H

/-- C10, operator form. -/
theorem C10_pushMinHeap [GoOrd T] [LawfulGoOrd T] (h : List T) (v : T) (H : IsHeap GoOrd.lt h) :
    ∃ h', pushMinHeap h v = .ret h' ∧ h'.Perm (v :: h) ∧ IsHeap GoOrd.lt h' := by
  rw [pushMinHeap_eq]; exact pushHeapFunc_spec LawfulGoOrd.weak h v H

/-- A heap in the sense of the hypotheses of C10-C12. -/
example : IsHeap (GoOrd.lt : Int → Int → Bool) [1, 2, 7, 3, 5] := by
  obtain ⟨b, h1, h2⟩ := C08_isMinHeap_iff [(1 : Int), 2, 7, 3, 5]
  have : isMinHeap [(1 : Int), 2, 7, 3, 5] = .ret true := by decide
  rw [this] at h1; cases h1; exact h2.1 rfl
example : pushMinHeap [1, 2, 7, 3, 5] (0 : Int) = .ret [0, 2, 1, 3, 5, 7] := by decide

/-- C11, comparison-function form. -/
theorem C11_popHeapFunc (less : T → T → Bool) (hw : StrictWeak less) (h : List T) (hne : h ≠ []) (H : IsHeap less h) :
    ∃ r h', popHeapFunc h less = .ret (r, h') ∧ (r :: h').Perm h ∧ (∀ y ∈ h, less y r = false) ∧ IsHeap less h' := by
  cases h with
  | nil => exact absurd rfl hne
  | cons x xs =>
    obtain ⟨h', h1, h2, h3⟩ := popHeapFunc_spec hw (x :: xs) (by simp) H
    exact ⟨x, h', h1, h2, H.root_min hw, h3⟩

/-- C11, operator form. -/
theorem C11_popMinHeap [GoOrd T] [LawfulGoOrd T] (h : List T) (hne : h ≠ []) (H : IsHeap GoOrd.lt h) :
    ∃ r h', popMinHeap h = .ret (r, h') ∧ (r :: h').Perm h ∧ (∀ y ∈ h, GoOrd.lt y r = false) ∧
      IsHeap GoOrd.lt h' := by
  rw [popMinHeap_eq]; exact C11_popHeapFunc _ LawfulGoOrd.weak h hne H

/-- C11: popping an empty heap panics. -/
theorem C11_pop_empty [GoOrd T] (less : T → T → Bool) :
    popMinHeap ([] : List T) = .panic ∧ popHeapFunc ([] : List T) less = .panic := ⟨rfl, rfl⟩

example : popMinHeap [1, 2, 7, 3, (5 : Int)] = .ret (1, [2, 3, 7, 5]) := by decide

/-- C12, comparison-function form. -/
theorem C12_removeHeapFunc (less : T → T → Bool) (hw : StrictWeak less) (h : List T) (i : Nat) (hi : i < h.length)
    (H : IsHeap less h) :
    ∃ h', removeHeapFunc h (i : Int) less = .ret (h[i], h') ∧ (h[i] :: h').Perm h ∧ IsHeap less h' :=
  removeHeapFunc_spec hw h i hi H

/-- C12, operator form. -/
theorem C12_removeMinHeap [GoOrd T] [LawfulGoOrd T] (h : List T) (i : Nat) (hi : i < h.length)
    (H : IsHeap GoOrd.lt h) :
    ∃ h', removeMinHeap h (i : Int) = .ret (h[i], h') ∧ (h[i] :: h').Perm h ∧ IsHeap GoOrd.lt h' := by
  rw [removeMinHeap_eq]; exact removeHeapFunc_spec LawfulGoOrd.weak h i hi H

/-- C12: any other index panics. -/
theorem C12_remove_panic [GoOrd T] (less : T → T → Bool) (h : List T) (i : Int) (hi : i < 0 ∨ (h.length : Int) ≤ i) :
    removeMinHeap h i = .panic ∧ removeHeapFunc h i less = .panic := by
  rw [removeMinHeap_eq]
  exact ⟨removeHeapFunc_panic h i hi, removeHeapFunc_panic h i hi⟩

/-- Removal that has to sift up, not down: the last element (4) is less than the parent (10) of the hole. -/
example : removeMinHeap [1, 10, 2, 11, 12, 3, (4 : Int)] 3 = .ret (11, [1, 4, 2, 10, 12, 3]) := by decide
example : removeMinHeap [(1 : Int), 2] (-1) = .panic ∧ removeMinHeap [(1 : Int), 2] 2 = .panic ∧
    removeMinHeap ([] : List Int) (-1) = .panic := by decide

/-- C13: with wrapping 64-bit arithmetic the sift-down loop computes the same as with unbounded integers, and its checked
accesses all succeed, for every length that a Go slice can have. -/
theorem C13_wrapping_sift_down (less : T → T → Bool) (h : List T) (i n : Nat) (hi : i < n) (hn : n ≤ h.length)
    (hlen : h.length ≤ 2 ^ 63 - 1) :
    ∃ (h' : List T) (i' : Nat), heapDownFuncLoopW less (n + 1) h i n = .ret (h', (i' : Int)) ∧
      heapDownFuncLoop less (n + 1) h i n = .ret (h', i') := by
  obtain ⟨h', i', e1, _⟩ := heapDownFuncLoop_any (less := less) (n + 1) h i n (by omega) hn
  refine ⟨h', i', ?_, e1⟩
  rw [heapDownFuncLoopW_eq _ _ _ _ (by omega) (by omega), e1]; rfl

/-- The overflow that the test `j1 < 0` guards against does occur for indices of this size. -/
example : wrap64 (wrap64 (2 * (2 ^ 62 + 5)) + 1) < 0 := by decide
example : heapDownFuncLoopW (fun a b : Int => decide (a < b)) 4 [9, 2, 5] 0 3 = .ret ([2, 9, 5], 1) := by decide

/-- C14: `PushMinHeap`/`PushHeapFunc` do at most `⌊log₂ n⌋` comparisons, `n` the new length. `pushHeapFuncC` is the
instrumented function; `erase` drops its counter. -/
theorem C14_push_cost (less : T → T → Bool) (h : List T) (v : T) :
    ∃ h' c, pushHeapFuncC h v less = .ret (h', c) ∧ pushHeapFunc h v less = .ret h' ∧
      c ≤ Nat.log2 (h.length + 1) := by
  obtain ⟨h', e1, -⟩ := pushHeapFunc_any (less := less) h v
  obtain ⟨c, hc⟩ := ret_of_erase ((pushHeapFuncC_erase h v).trans e1)
  refine ⟨h', c, hc, e1, ?_⟩
  have := heapUpFuncLoopC_bound _ _ _ _ _ _ hc
  simpa using this

/-- C14: `PopMinHeap`/`PopHeapFunc` do at most `2⌊log₂ (n-1)⌋` comparisons. -/
theorem C14_pop_cost (less : T → T → Bool) (h : List T) (hne : h ≠ []) :
    ∃ r c, popHeapFuncC h less = .ret (r, c) ∧ popHeapFunc h less = .ret r ∧ c ≤ 2 * Nat.log2 (h.length - 1) := by
  have hpos : 0 < h.length := List.length_pos_iff.2 hne
  obtain ⟨h', e1, -⟩ := popHeapFunc_any (less := less) h hpos
  obtain ⟨c, hc⟩ := ret_of_erase ((popHeapFuncC_erase h).trans e1)
  refine ⟨_, c, hc, e1, ?_⟩
  simp only [popHeapFuncC] at hc
  cases hs : heapSwapI h 0 (↑h.length - 1) with
  | ret s =>
    rw [hs] at hc
    simp only [Outcome.ret_bind] at hc
    cases hd : heapDownFuncC s 0 ((h.length : Int) - 1).toNat less 0 with
    | ret p =>
      obtain ⟨a, b, d⟩ := p
      rw [hd] at hc
      simp only [Outcome.ret_bind] at hc
      cases hx : idx a ((h.length : Int) - 1).toNat with
      | ret x =>
        rw [hx] at hc
        cases hc
        have := heapDownFuncC_bound _ _ _ _ _ _ _ hd
        have e : ((h.length : Int) - 1).toNat = h.length - 1 := by omega
        simpa [e] using this
      | panic => rw [hx] at hc; cases hc
      | diverge => rw [hx] at hc; cases hc
    | panic => rw [hd] at hc; cases hc
    | diverge => rw [hd] at hc; cases hc
  | panic => rw [hs] at hc; cases hc
  | diverge => rw [hs] at hc; cases hc

/-- C14: `RemoveMinHeap`/`RemoveHeapFunc` do at most `3⌊log₂ n⌋` comparisons. -/
theorem C14_remove_cost (less : T → T → Bool) (h : List T) (i : Nat) (hi : i < h.length) :
    ∃ r c, removeHeapFuncC h i less = .ret (r, c) ∧ removeHeapFunc h i less = .ret r ∧ c ≤ 3 * Nat.log2 h.length := by
  obtain ⟨h', e1, -⟩ := removeHeapFunc_any (less := less) h i hi
  obtain ⟨c, hc⟩ := ret_of_erase ((removeHeapFuncC_erase h i).trans e1)
  refine ⟨_, c, hc, e1, ?_⟩
  simp only [removeHeapFuncC] at hc
  cases hs : removeHeapFuncSiftC h i (↑h.length - 1) less with
  | ret p =>
    obtain ⟨s, c1⟩ := p
    rw [hs] at hc
    simp only [Outcome.ret_bind] at hc
    have hcc : c = c1 := by
      split at hc
      · cases hc
      · cases hx : idx s ((h.length : Int) - 1).toNat with
        | ret x => rw [hx] at hc; cases hc; rfl
        | panic => rw [hx] at hc; cases hc
        | diverge => rw [hx] at hc; cases hc
    subst hcc
    simp only [removeHeapFuncSiftC] at hs
    split at hs
    · cases hw : heapSwapI h i (↑h.length - 1) with
      | ret w =>
        rw [hw] at hs
        simp only [Outcome.ret_bind] at hs
        cases hd : heapDownFuncC w (i : Int).toNat ((h.length : Int) - 1).toNat less 0 with
        | ret p =>
          obtain ⟨a, b, d⟩ := p
          rw [hd] at hs
          simp only [Outcome.ret_bind] at hs
          have hb := heapDownFuncC_bound _ _ _ _ _ _ _ hd
          have hm : Nat.log2 (((h.length : Int) - 1).toNat / ((i : Int).toNat + 1)) ≤ Nat.log2 h.length :=
            log2_mono (Nat.le_trans (Nat.div_le_self _ _) (by omega))
          have hm2 : Nat.log2 ((i : Int).toNat + 1) ≤ Nat.log2 h.length := log2_mono (by omega)
          split at hs
          · have := heapUpFuncLoopC_bound _ _ _ _ _ _ hs
            omega
          · cases hs; omega
        | panic => rw [hd] at hs; cases hs
        | diverge => rw [hd] at hs; cases hs
      | panic => rw [hw] at hs; cases hs
      | diverge => rw [hw] at hs; cases hs
    · cases hs; omega
  | panic => rw [hs] at hc; cases hc
  | diverge => rw [hs] at hc; cases hc

/-- C14: `MakeMinHeap`/`MakeHeapFunc` do at most `2n` comparisons. -/
theorem C14_make_cost (less : T → T → Bool) (a : List T) :
    ∃ h c, makeHeapFuncC a less = .ret (h, c) ∧ makeHeapFunc a less = .ret h ∧ c ≤ 2 * a.length := by
  obtain ⟨h, e1, -⟩ := makeHeapFuncLoop_any (less := less) a.length (a.length / 2) a (Nat.le_refl _)
  obtain ⟨c, hc⟩ := ret_of_erase ((makeHeapFuncLoopC_erase a.length (a.length / 2) a 0).trans e1)
  refine ⟨h, c, hc, e1, ?_⟩
  have h1 := makeHeapFuncLoopC_bound _ _ _ _ _ _ hc
  have h2 := heightSum_le a.length (a.length / 2)
  omega

example : pushHeapFuncC [2, 3, 4] (1 : Int) (fun a b => decide (a < b)) = .ret ([1, 2, 4, 3], 2) := by decide
example : makeHeapFuncC [4, 3, 2, (1 : Int)] (fun a b => decide (a < b)) = .ret ([1, 3, 2, 4], 4) := by decide

/-- C82: whatever the comparison answers (inconsistent `less`, NaN keys), on any slice, heap or not, the four
operations return normally and keep the multiset of elements; pop and remove return the element of index 0 / `i`. -/
theorem C82_any_less_make (less : T → T → Bool) (h : List T) :
    ∃ h', makeHeapFunc h less = .ret h' ∧ h'.Perm h :=
  makeHeapFuncLoop_any _ _ _ (Nat.le_refl _)

theorem C82_any_less_push (less : T → T → Bool) (h : List T) (v : T) :
    ∃ h', pushHeapFunc h v less = .ret h' ∧ h'.Perm (v :: h) := pushHeapFunc_any h v

theorem C82_any_less_pop (less : T → T → Bool) (h : List T) (hne : 0 < h.length) :
    ∃ h', popHeapFunc h less = .ret (h[0], h') ∧ (h[0] :: h').Perm h := popHeapFunc_any h hne

theorem C82_any_less_remove (less : T → T → Bool) (h : List T) (i : Nat) (hi : i < h.length) :
    ∃ h', removeHeapFunc h (i : Int) less = .ret (h[i], h') ∧ (h[i] :: h').Perm h := removeHeapFunc_any h i hi

theorem C82_operator_forms [GoOrd T] (h : List T) (v : T) (i : Int) :
    makeMinHeap h = makeHeapFunc h GoOrd.lt ∧ pushMinHeap h v = pushHeapFunc h v GoOrd.lt ∧
    popMinHeap h = popHeapFunc h GoOrd.lt ∧ removeMinHeap h i = removeHeapFunc h i GoOrd.lt :=
  ⟨makeMinHeap_eq h, pushMinHeap_eq h v, popMinHeap_eq h, removeMinHeap_eq h i⟩

/-- With a NaN inside, nothing is lost (although the result is not sorted by any order). -/
example : popMinHeap [NanInt.num 3, .nan, .num 1] = .ret (.num 3, [.num 1, .nan]) := by decide

end Stl4go
