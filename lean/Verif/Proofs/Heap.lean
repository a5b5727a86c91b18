import Verif.Model.Heap
import Verif.Spec.Heap
import Verif.Proofs.Order
/-! # Proofs about `heap.go` -/
namespace Stl4go
variable {T : Type}

/-- `h` with the elements at `i` and `j` exchanged. -/
def swapped (h : List T) (i j : Nat) (hi : i < h.length) (hj : j < h.length) : List T :=
  (h.set i h[j]).set j h[i]

theorem heapSwap_eq (h : List T) (i j : Nat) (hi : i < h.length) (hj : j < h.length) :
    heapSwap h i j = .ret (swapped h i j hi hj) := by
  simp [heapSwap, hi, hj, swapped]

@[simp] theorem length_swapped (h : List T) (i j : Nat) (hi : i < h.length) (hj : j < h.length) :
    (swapped h i j hi hj).length = h.length := by simp [swapped]

theorem getElem_swapped (h : List T) (i j : Nat) (hi : i < h.length) (hj : j < h.length) (k : Nat)
    (hk : k < (swapped h i j hi hj).length) :
    (swapped h i j hi hj)[k] = if k = j then h[i] else if k = i then h[j] else h[k]'(by simpa using hk) := by
  simp only [swapped, List.getElem_set]
  grind

theorem swapped_perm (h : List T) (i j : Nat) (hi : i < h.length) (hj : j < h.length) :
    (swapped h i j hi hj).Perm h := List.set_set_perm hi hj

theorem heapSwap_spec (h : List T) (i j : Nat) (hi : i < h.length) (hj : j < h.length) :
    ∃ s, heapSwap h i j = .ret s ∧ s.length = h.length ∧ s.Perm h ∧
      (∀ k (hk : k < s.length) (hk' : k < h.length), s[k] = if k = j then h[i] else if k = i then h[j] else h[k]) :=
  ⟨_, heapSwap_eq h i j hi hj, length_swapped _ _ _ _ _, swapped_perm _ _ _ _ _,
    fun _ _ _ => getElem_swapped _ _ _ _ _ _ _⟩

/-- Heap order between `k` and its parent. -/
def OkAt (less : T → T → Bool) (h : List T) (k : Nat) : Prop :=
  ∀ hk : k < h.length, less h[k] (h[(k - 1) / 2]'(by omega)) = false

theorem isHeap_iff_okAt (less : T → T → Bool) (h : List T) :
    IsHeap less h ↔ ∀ k, 0 < k → k < h.length → OkAt less h k := by
  constructor
  · intro H k hk hl _; exact H k hl hk
  · intro H i hi h0; exact H i h0 hi hi

section down
variable {less : T → T → Bool}

/-- The child chosen by the sift-down step. -/
def childOf (less : T → T → Bool) (h : List T) (i n : Nat) (hn : n ≤ h.length) (_h1 : 2 * i + 1 < n) : Nat :=
  if h2 : 2 * i + 2 < n then
    if less h[2 * i + 2] h[2 * i + 1] then 2 * i + 2 else 2 * i + 1
  else 2 * i + 1

theorem childOf_bounds (h : List T) (i n : Nat) (hn : n ≤ h.length) (h1 : 2 * i + 1 < n) :
    (childOf less h i n hn h1 = 2 * i + 1 ∨ childOf less h i n hn h1 = 2 * i + 2) ∧ childOf less h i n hn h1 < n := by
  unfold childOf
  split
  · split <;> simp <;> omega
  · simp; omega

theorem childOf_min (hw : StrictWeak less) (h : List T) (i n : Nat) (hn : n ≤ h.length) (h1 : 2 * i + 1 < n)
    (k : Nat) (hk : k < n) (hk0 : 0 < k) (hp : (k - 1) / 2 = i) :
    less h[k] (h[childOf less h i n hn h1]'(by have := (childOf_bounds (less := less) h i n hn h1).2; omega)) = false := by
  have hk' : k = 2 * i + 1 ∨ k = 2 * i + 2 := by omega
  unfold childOf
  rcases hk' with rfl | rfl
  · by_cases h2 : 2 * i + 2 < n
    · by_cases hl : less h[2 * i + 2] h[2 * i + 1] = true
      · simp only [h2, hl, dite_true, if_true]; exact hw.asymm hl
      · simp only [h2, hl, dite_true]; exact hw.irrefl _
    · simp only [h2, dite_false]; exact hw.irrefl _
  · simp only [hk, dite_true]
    by_cases hl : less h[2 * i + 2] h[2 * i + 1] = true
    · simp only [hl, if_true]; exact hw.irrefl _
    · simp only [hl]; simpa using hl

/-- One unfolding of the sift-down loop. -/
theorem heapDownFuncLoop_step (f : Nat) (h : List T) (i n : Nat) (hn : n ≤ h.length)
    (h1 : 2 * i + 1 < n) :
    ∃ c, ∃ hc : c < n, (c = 2 * i + 1 ∨ c = 2 * i + 2) ∧
      ∃ s, heapSwap h i c = .ret s ∧ s.length = h.length ∧ s.Perm h ∧
      (∀ k (hk : k < s.length) (hk' : k < h.length), s[k] = if k = c then h[i] else if k = i then h[c] else h[k]) ∧
      heapDownFuncLoop less (f + 1) h i n =
        (if less h[c] h[i] then heapDownFuncLoop less f s c n else .ret (h, i)) ∧
      (StrictWeak less → ∀ k (hk : k < n), 0 < k → (k - 1) / 2 = i → less h[k] h[c] = false) := by
  have hc := (childOf_bounds (less := less) h i n hn h1)
  refine ⟨childOf less h i n hn h1, hc.2, hc.1,
    swapped h i _ (by omega) (by omega), heapSwap_eq h i _ (by omega) (by omega), length_swapped _ _ _ _ _,
    swapped_perm _ _ _ _ _, fun k hk hk' => getElem_swapped _ _ _ _ _ _ _, ?_, fun hw => childOf_min hw h i n hn h1⟩
  have hc2 := hc.2
  have e1 : 2 * i + 1 < h.length := by omega
  have hsel : heapSmallerChildFunc less h (2 * i + 1) n = .ret (childOf less h i n hn h1) := by
    unfold childOf
    by_cases h2 : 2 * i + 2 < n
    · have e2 : 2 * i + 2 < h.length := by omega
      simp [heapSmallerChildFunc, h2, idx_of_lt e1, idx_of_lt e2]
    · simp [heapSmallerChildFunc, h2]
  simp only [heapDownFuncLoop, ge_iff_le, hsel]
  rw [if_neg (by omega)]
  simp only [Outcome.ret_bind]
  rw [idx_of_lt (by omega : childOf less h i n hn h1 < h.length), idx_of_lt (by omega : i < h.length)]
  simp only [Outcome.ret_bind]
  rw [heapSwap_eq h i _ (by omega) (by omega)]
  cases less (h[childOf less h i n hn h1]'(by omega)) (h[i]'(by omega)) <;> simp

theorem heapDownFuncLoop_leaf (f : Nat) (h : List T) (i n : Nat) (h1 : ¬ 2 * i + 1 < n) :
    heapDownFuncLoop less (f + 1) h i n = .ret (h, i) := by
  simp only [heapDownFuncLoop, ge_iff_le]
  rw [if_pos (by omega)]; rfl

/-- Sift-down: what the loop guarantees, from a position `i` at or below the start `i0`.
`lo` restricts attention to pairs whose parent is at least `lo` (needed while building a heap bottom-up). -/
theorem heapDownFuncLoop_spec (hw : StrictWeak less) (n lo i0 : Nat) (f : Nat) (h : List T) (i : Nat)
    (hf : n - i < f) (hn : n ≤ h.length) (hi : i < n) (_hlo : lo ≤ i0) (hi0 : i0 ≤ i)
    (P1 : ∀ k, 0 < k → k < n → lo ≤ (k - 1) / 2 → (k - 1) / 2 ≠ i → k ≠ i0 → OkAt less h k)
    (P2 : ∀ k (hk : k < n), 0 < k → (k - 1) / 2 = i → 0 < i → lo ≤ (i - 1) / 2 →
        less h[k] (h[(i - 1) / 2]'(by omega)) = false) :
    ∃ h' i', heapDownFuncLoop less f h i n = .ret (h', i') ∧ i ≤ i' ∧ i' < n ∧ h'.length = h.length ∧ h'.Perm h ∧
      (∀ k (hk : k < h'.length) (hk' : k < h.length), (k < i ∨ n ≤ k) → h'[k] = h[k]) ∧
      (∀ k, 0 < k → k < n → lo ≤ (k - 1) / 2 → k ≠ i0 → OkAt less h' k) ∧
      (i' = i → h' = h) ∧
      (i < i' → ∃ c, ∃ hc : c < n, 0 < c ∧ (c - 1) / 2 = i ∧
          ∀ hk : i < h'.length, h'[i] = h[c]) := by
  induction f generalizing h i with
  | zero => omega
  | succ f ih =>
    by_cases h1 : 2 * i + 1 < n
    · obtain ⟨c, hcn, hcd, s, -, hls, hps, hgs, hstep, hmin⟩ := heapDownFuncLoop_step (less := less) f h i n hn h1
      replace hmin := hmin hw
      rw [hstep]
      have hcp : (c - 1) / 2 = i := by omega
      have hci : i < c := by omega
      cases hl : less (h[c]'(by omega)) (h[i]'(by omega)) with
      | true =>
        simp only [if_true]
        obtain ⟨h', i', e1, e2, e3, e4, e5, e6, e7, e8, e9⟩ := ih s c (by omega) (by omega) hcn (by omega) (by
            -- P1 for the swapped heap at c
            intro k hk0 hkn hklo hkp hki0 hk
            rw [hgs _ (by omega) (by omega), hgs _ (by omega) (by omega)]
            by_cases hkc : k = c
            · subst hkc
              rw [if_pos rfl, if_neg (by omega), if_pos hcp]
              exact hw.asymm hl
            · rw [if_neg hkc]
              by_cases hki : k = i
              · subst hki
                rw [if_pos rfl, if_neg (by omega), if_neg (by omega)]
                exact P2 c hcn (by omega) hcp hk0 hklo
              · rw [if_neg hki]
                by_cases hkpi : (k - 1) / 2 = i
                · rw [if_neg (by omega), if_pos hkpi]
                  exact hmin k hkn hk0 hkpi
                · rw [if_neg hkp, if_neg hkpi]
                  exact P1 k hk0 hkn hklo hkpi hki0 (by omega)) (by
            -- P2 for the swapped heap at c
            intro k hkn hk0 hkp hc0 hlo'
            rw [hgs _ (by omega) (by omega), hgs _ (by omega) (by omega)]
            rw [if_neg (by omega), if_neg (by omega), if_neg (by omega), if_pos hcp]
            have := P1 k hk0 hkn (by omega) (by omega) (by omega) (by omega)
            simpa only [hkp] using this)
        refine ⟨h', i', e1, by omega, e3, by omega, e5.trans hps, ?_, e7, by omega, ?_⟩
        · intro k hk hk' hkk
          rw [e6 k hk (by omega) (by omega), hgs _ (by omega) (by omega), if_neg (by omega), if_neg (by omega)]
        · intro _
          refine ⟨c, hcn, by omega, hcp, ?_⟩
          intro hk
          rw [e6 i hk (by omega) (by omega), hgs _ (by omega) (by omega), if_neg (by omega), if_pos rfl]
      | false =>
        simp only [Bool.false_eq_true, if_false]
        refine ⟨h, i, rfl, by omega, hi, rfl, List.Perm.refl _, fun _ _ _ _ => rfl, ?_, fun _ => rfl, by omega⟩
        intro k hk0 hkn hklo hki0 hk
        by_cases hkp : (k - 1) / 2 = i
        · have := hmin k hkn hk0 hkp
          simp only [hkp]
          exact hw.negTrans this hl
        · exact P1 k hk0 hkn hklo hkp hki0 hk
    · rw [heapDownFuncLoop_leaf f h i n h1]
      refine ⟨h, i, rfl, by omega, hi, rfl, List.Perm.refl _, fun _ _ _ _ => rfl, ?_, fun _ => rfl, by omega⟩
      intro k hk0 hkn hklo hki0
      exact P1 k hk0 hkn hklo (by omega) hki0

/-- Sift-down from `i0`. -/
theorem heapDownFunc_spec (hw : StrictWeak less) (n lo i0 : Nat) (h : List T)
    (hn : n ≤ h.length) (hi : i0 < n) (hlo : lo ≤ i0)
    (P1 : ∀ k, 0 < k → k < n → lo ≤ (k - 1) / 2 → (k - 1) / 2 ≠ i0 → k ≠ i0 → OkAt less h k)
    (P2 : ∀ k (hk : k < n), 0 < k → (k - 1) / 2 = i0 → 0 < i0 → lo ≤ (i0 - 1) / 2 →
        less h[k] (h[(i0 - 1) / 2]'(by omega)) = false) :
    ∃ h' moved, heapDownFunc h i0 n less = .ret (h', moved) ∧ h'.length = h.length ∧ h'.Perm h ∧
      (∀ k (hk : k < h'.length) (hk' : k < h.length), (k < i0 ∨ n ≤ k) → h'[k] = h[k]) ∧
      (∀ k, 0 < k → k < n → lo ≤ (k - 1) / 2 → k ≠ i0 → OkAt less h' k) ∧
      (moved = false → h' = h) ∧
      (moved = true → 0 < i0 → lo ≤ (i0 - 1) / 2 → OkAt less h' i0) := by
  obtain ⟨h', i', e1, e2, e3, e4, e5, e6, e7, e8, e9⟩ :=
    heapDownFuncLoop_spec hw n lo i0 (n + 1) h i0 (by omega) hn hi hlo (Nat.le_refl _) P1 P2
  refine ⟨h', decide (i' > i0), by simp [heapDownFunc, e1], e4, e5, e6, e7, ?_, ?_⟩
  · intro hm; simp only [decide_eq_false_iff_not] at hm; exact e8 (by omega)
  · intro hm h0 hlo' hk
    simp only [decide_eq_true_eq] at hm
    obtain ⟨c, hc, hc0, hcp, hv⟩ := e9 hm
    rw [hv hk, e6 ((i0 - 1) / 2) (by omega) (by omega) (by omega)]
    exact P2 c hc hc0 hcp h0 hlo'

/-- Sift-up. -/
theorem heapUpFuncLoop_spec (hw : StrictWeak less) (n : Nat) (f : Nat) (h : List T) (j : Nat) (hf : j < f)
    (hn : n ≤ h.length) (hj : j < n)
    (P1 : ∀ k, 0 < k → k < n → k ≠ j → OkAt less h k)
    (P2 : ∀ k (hk : k < n), 0 < k → (k - 1) / 2 = j → 0 < j → less h[k] (h[(j - 1) / 2]'(by omega)) = false) :
    ∃ h', heapUpFuncLoop less f h j = .ret h' ∧ h'.length = h.length ∧ h'.Perm h ∧
      (∀ k (hk : k < h'.length) (hk' : k < h.length), j < k → h'[k] = h[k]) ∧
      (∀ k, 0 < k → k < n → OkAt less h' k) := by
  induction f generalizing h j with
  | zero => omega
  | succ f ih =>
    simp only [heapUpFuncLoop]
    by_cases hj0 : (j - 1) / 2 = j
    · rw [if_pos hj0]
      have : j = 0 := by omega
      subst this
      exact ⟨h, rfl, rfl, List.Perm.refl _, fun _ _ _ _ => rfl, fun k hk0 hkn => P1 k hk0 hkn (by omega)⟩
    · rw [if_neg hj0]
      have hj' : 0 < j := by omega
      rw [idx_of_lt (by omega : j < h.length), idx_of_lt (by omega : (j - 1) / 2 < h.length)]
      simp only [Outcome.ret_bind]
      obtain ⟨s, hsw, hls, hps, hgs⟩ := heapSwap_spec h ((j - 1) / 2) j (by omega) (by omega)
      rw [hsw]
      cases hl : less (h[j]'(by omega)) (h[(j - 1) / 2]'(by omega)) with
      | false =>
        refine ⟨h, by simp, rfl, List.Perm.refl _, fun _ _ _ _ => rfl, ?_⟩
        intro k hk0 hkn
        by_cases hkj : k = j
        · subst hkj; intro hk; exact hl
        · exact P1 k hk0 hkn hkj
      | true =>
        simp only [Bool.not_true, Bool.false_eq_true, if_false, Outcome.ret_bind]
        obtain ⟨h', e1, e2, e3, e4, e5⟩ := ih s ((j - 1) / 2) (by omega) (by omega) (by omega) (by
            intro k hk0 hkn hki hk
            rw [hgs _ (by omega) (by omega), hgs _ (by omega) (by omega)]
            by_cases hkj : k = j
            · subst hkj
              rw [if_pos rfl, if_neg (by omega), if_pos rfl]
              exact hw.asymm hl
            · rw [if_neg hkj, if_neg hki]
              by_cases hkp : (k - 1) / 2 = j
              · rw [if_pos hkp]
                exact P2 k hkn hk0 hkp hj'
              · rw [if_neg hkp]
                by_cases hkp' : (k - 1) / 2 = (j - 1) / 2
                · rw [if_pos hkp']
                  have := P1 k hk0 hkn hkj (by omega)
                  simp only [hkp'] at this
                  exact hw.negTrans this (hw.asymm hl)
                · rw [if_neg hkp']
                  exact P1 k hk0 hkn hkj (by omega)) (by
            intro k hkn hk0 hkp hi0
            rw [hgs _ (by omega) (by omega), hgs _ (by omega) (by omega)]
            have hoki : less (h[(j - 1) / 2]'(by omega)) (h[((j - 1) / 2 - 1) / 2]'(by omega)) = false :=
              P1 ((j - 1) / 2) (by omega) (by omega) (by omega) (by omega)
            rw [if_neg (by omega : ¬ ((j - 1) / 2 - 1) / 2 = j), if_neg (by omega : ¬ ((j - 1) / 2 - 1) / 2 = (j - 1) / 2)]
            by_cases hkj : k = j
            · subst hkj
              rw [if_pos rfl]
              exact hoki
            · rw [if_neg hkj, if_neg (by omega)]
              have := P1 k hk0 hkn hkj (by omega)
              simp only [hkp] at this
              exact hw.negTrans this hoki)
        refine ⟨h', e1, by omega, e3.trans hps, ?_, e5⟩
        intro k hk hk' hjk
        rw [e4 k hk (by omega) (by omega), hgs _ (by omega) (by omega), if_neg (by omega), if_neg (by omega)]

end down

end Stl4go
