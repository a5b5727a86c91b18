import Verif.Proofs.Heap
/-! # The exported functions of `heap.go` -/
namespace Stl4go
variable {T : Type}

/-! ## Operator forms are the function forms at `<` -/
section ord
variable [GoOrd T]

theorem heapUp_eq (h : List T) (j : Nat) : heapUp h j = heapUpFunc h j GoOrd.lt := by
  have : ∀ f (h : List T) j, heapUpLoop f h j = heapUpFuncLoop GoOrd.lt f h j := by
    intro f
    induction f with
    | zero => intros; rfl
    | succ f ih => intro h j; simp only [heapUpLoop, heapUpFuncLoop, ih]
  exact this _ _ _

theorem heapDown_eq (h : List T) (i n : Nat) : heapDown h i n = heapDownFunc h i n GoOrd.lt := by
  have : ∀ f (h : List T) i n, heapDownLoop f h i n = heapDownFuncLoop GoOrd.lt f h i n := by
    intro f
    induction f with
    | zero => intros; rfl
    | succ f ih => intro h i n; simp only [heapDownLoop, heapDownFuncLoop, ih]; rfl
  simp only [heapDown, heapDownFunc, this]

theorem makeMinHeap_eq (a : List T) : makeMinHeap a = makeHeapFunc a GoOrd.lt := by
  have : ∀ n i (a : List T), makeMinHeapLoop n i a = makeHeapFuncLoop GoOrd.lt n i a := by
    intro n i
    induction i with
    | zero => intros; rfl
    | succ i ih => intro a; simp only [makeMinHeapLoop, makeHeapFuncLoop, ih, heapDown_eq]
  exact this _ _ _

theorem pushMinHeap_eq (h : List T) (v : T) : pushMinHeap h v = pushHeapFunc h v GoOrd.lt := by
  simp only [pushMinHeap, pushHeapFunc, heapUp_eq]

theorem popMinHeap_eq (h : List T) : popMinHeap h = popHeapFunc h GoOrd.lt := by
  simp only [popMinHeap, popHeapFunc, heapDown_eq]

theorem removeMinHeap_eq (h : List T) (i : Int) : removeMinHeap h i = removeHeapFunc h i GoOrd.lt := by
  simp only [removeMinHeap, removeHeapFunc, removeMinHeapSift, removeHeapFuncSift, heapDown_eq, heapUp_eq]

end ord

variable {less : T → T → Bool}

/-- The root of a heap is a minimum. -/
theorem IsHeap.root_le (hw : StrictWeak less) {h : List T} (H : IsHeap less h) (k : Nat) (hk : k < h.length) :
    less h[k] (h[0]'(by omega)) = false := by
  induction k using Nat.strongRecOn with
  | _ k ih =>
    by_cases h0 : k = 0
    · subst h0; exact hw.irrefl _
    · exact hw.negTrans (H k hk (by omega)) (ih ((k - 1) / 2) (by omega) (by omega))

theorem IsHeap.root_min (hw : StrictWeak less) {x : T} {xs : List T} (H : IsHeap less (x :: xs)) :
    ∀ y ∈ x :: xs, less y x = false := by
  intro y hy
  obtain ⟨k, hk, rfl⟩ := List.getElem_of_mem hy
  exact H.root_le hw k hk

/-! ## MakeHeap -/

theorem makeHeapFuncLoop_spec (hw : StrictWeak less) (n : Nat) (i : Nat) (h : List T) (hn : n = h.length)
    (hi : i ≤ n / 2) (H : ∀ k, 0 < k → k < n → i ≤ (k - 1) / 2 → OkAt less h k) :
    ∃ h', makeHeapFuncLoop less n i h = .ret h' ∧ h'.Perm h ∧ IsHeap less h' := by
  induction i generalizing h with
  | zero =>
    refine ⟨h, rfl, List.Perm.refl _, (isHeap_iff_okAt _ _).2 ?_⟩
    intro k hk hk'
    exact H k hk (by omega) (Nat.zero_le _)
  | succ i ih =>
    obtain ⟨h', m, e1, e2, e3, e4, e5, e6, e7⟩ := heapDownFunc_spec hw n i i h (by omega) (by omega) (Nat.le_refl _)
      (fun k h0 hkn hlo hne _ => H k h0 hkn (by omega))
      (fun k hk h0 hp hi0 hlo => by omega)
    obtain ⟨h'', g1, g2, g3⟩ := ih h' (by omega) (by omega)
      (fun k h0 hkn hlo => e5 k h0 hkn hlo (by omega))
    exact ⟨h'', by simp [makeHeapFuncLoop, e1, g1], g2.trans e3, g3⟩

theorem makeHeapFunc_spec (hw : StrictWeak less) (h : List T) :
    ∃ h', makeHeapFunc h less = .ret h' ∧ h'.Perm h ∧ IsHeap less h' :=
  makeHeapFuncLoop_spec hw h.length _ h rfl (Nat.le_refl _) (fun k h0 hk hlo => by omega)

/-! ## IsHeap -/

theorem isMinHeapLoop_spec [GoOrd T] (a : List T) (rem child : Nat) (hc : 0 < child) (h : child + rem = a.length ∨ rem = 0) :
    ∃ b, isMinHeapLoop a rem child ((child - 1) / 2) = .ret b ∧
      (b = true ↔ ∀ k, child ≤ k → k < child + rem → OkAt GoOrd.lt a k) := by
  induction rem generalizing child with
  | zero => exact ⟨true, rfl, by simp; intro k h1 h2; omega⟩
  | succ rem ih =>
    have hl : child < a.length := by omega
    have hp : (child - 1) / 2 < a.length := by omega
    simp only [isMinHeapLoop, idx_of_lt hl, idx_of_lt hp, Outcome.ret_bind]
    cases hlt : GoOrd.lt a[child] a[(child - 1) / 2] with
    | true =>
      refine ⟨false, rfl, ?_⟩
      simp only [Bool.false_eq_true, false_iff]
      intro H
      have := H child (Nat.le_refl _) (by omega) hl
      rw [hlt] at this; exact absurd this (by decide)
    | false =>
      have hpar : (if child % 2 = 0 then (child - 1) / 2 + 1 else (child - 1) / 2) = (child + 1 - 1) / 2 := by
        split <;> omega
      obtain ⟨b, e1, e2⟩ := ih (child + 1) (by omega) (by omega)
      refine ⟨b, by simp only [Bool.false_eq_true, if_false]; rw [hpar, e1], ?_⟩
      rw [e2]
      constructor
      · intro H k h1 h2
        by_cases hk : k = child
        · subst hk; intro _; exact hlt
        · exact H k (by omega) (by omega)
      · intro H k h1 h2; exact H k (by omega) (by omega)

theorem isMinHeap_spec [GoOrd T] (a : List T) :
    ∃ b, isMinHeap a = .ret b ∧ (b = true ↔ IsHeap GoOrd.lt a) := by
  obtain ⟨b, h1, h2⟩ := isMinHeapLoop_spec a (a.length - 1) 1 (by omega) (by omega)
  refine ⟨b, h1, h2.trans ?_⟩
  rw [isHeap_iff_okAt]
  constructor
  · intro H k h0 hk; exact H k h0 (by omega)
  · intro H k h0 hk hk'; exact H k h0 hk' hk'

theorem isHeapFuncLoop_spec (a : List T) (rem child : Nat) (hc : 0 < child) (h : child + rem = a.length ∨ rem = 0) :
    ∃ b, isHeapFuncLoop a less rem child ((child - 1) / 2) = .ret b ∧
      (b = true ↔ ∀ k (_ : child ≤ k) (_ : k < child + rem) (hk : k < a.length),
        less (a[(k - 1) / 2]'(by omega)) a[k] = true) := by
  induction rem generalizing child with
  | zero => exact ⟨true, rfl, by simp; intro k h1 h2; omega⟩
  | succ rem ih =>
    have hl : child < a.length := by omega
    have hp : (child - 1) / 2 < a.length := by omega
    simp only [isHeapFuncLoop, idx_of_lt hl, idx_of_lt hp, Outcome.ret_bind]
    cases hlt : less a[(child - 1) / 2] a[child] with
    | false =>
      refine ⟨false, rfl, ?_⟩
      simp only [Bool.false_eq_true, false_iff]
      intro H
      have := H child (Nat.le_refl _) (by omega) hl
      rw [hlt] at this; exact absurd this (by decide)
    | true =>
      have hpar : (if child % 2 = 0 then (child - 1) / 2 + 1 else (child - 1) / 2) = (child + 1 - 1) / 2 := by
        split <;> omega
      obtain ⟨b, e1, e2⟩ := ih (child + 1) (by omega) (by omega)
      refine ⟨b, by simp only [Bool.not_true, Bool.false_eq_true, if_false]; rw [hpar, e1], ?_⟩
      rw [e2]
      constructor
      · intro H k h1 h2 hk'
        by_cases hk : k = child
        · subst hk; exact hlt
        · exact H k (by omega) (by omega) hk'
      · intro H k h1 h2; exact H k (by omega) (by omega)

theorem isHeapFunc_spec (a : List T) :
    ∃ b, isHeapFunc a less = .ret b ∧
      (b = true ↔ ∀ k (hk : k < a.length), 0 < k → less (a[(k - 1) / 2]'(by omega)) a[k] = true) := by
  obtain ⟨b, h1, h2⟩ := isHeapFuncLoop_spec (less := less) a (a.length - 1) 1 (by omega) (by omega)
  refine ⟨b, h1, h2.trans ?_⟩
  constructor
  · intro H k hk h0; exact H k h0 (by omega) hk
  · intro H k h0 _ hk; exact H k hk h0

/-! ## Push -/

theorem pushHeapFunc_spec (hw : StrictWeak less) (h : List T) (v : T) (H : IsHeap less h) :
    ∃ h', pushHeapFunc h v less = .ret h' ∧ h'.Perm (v :: h) ∧ IsHeap less h' := by
  obtain ⟨h', e1, e2, e3, _, e5⟩ := heapUpFuncLoop_spec hw (h.length + 1) (h.length + 1) (h ++ [v]) h.length
    (by omega) (by simp) (by omega)
    (by
      intro k h0 hk hne hk'
      rw [List.getElem_append_left (by omega), List.getElem_append_left (by omega)]
      exact H k (by omega) h0)
    (by intro k hk h0 hp; omega)
  refine ⟨h', by simp [pushHeapFunc, heapUpFunc, e1], e3.trans ?_, (isHeap_iff_okAt _ _).2 ?_⟩
  · exact List.perm_append_comm
  · intro k h0 hk
    simp at e2
    exact e5 k h0 (by omega)

/-! ## Pop and Remove -/

theorem heapSwapI_nat (h : List T) (i j : Nat) : heapSwapI h (i : Int) (j : Int) = heapSwap h i j := by
  rw [heapSwapI, if_neg (by omega)]; simp

theorem heapSwap_panic (h : List T) (i j : Nat) (hi : h.length ≤ i ∨ h.length ≤ j) : heapSwap h i j = .panic := by
  by_cases hj : j < h.length
  · have : h[i]? = none := by simp; omega
    simp [heapSwap, hj, idx, this]
  · have : h[j]? = none := by simp; omega
    simp [heapSwap, idx, this]

theorem take_perm_of_last (h : List T) (n : Nat) (hn : h.length = n + 1) :
    (h[n] :: h.take n).Perm h := by
  have : h.take n ++ [h[n]] = h := by
    rw [List.take_append_getElem]
    exact List.take_of_length_le (by omega)
  exact (List.perm_append_comm (l₁ := [h[n]])).trans (by rw [this])

theorem okAt_take (h : List T) (n : Nat) (hn : h.length = n + 1) (H : ∀ k, 0 < k → k < n → OkAt less h k) :
    IsHeap less (h.take n) := by
  intro k hk h0
  simp only [List.length_take] at hk
  rw [List.getElem_take, List.getElem_take]
  exact H k h0 (by omega) (by omega)

theorem popHeapFunc_spec (hw : StrictWeak less) (h : List T) (hne : 0 < h.length) (H : IsHeap less h) :
    ∃ h', popHeapFunc h less = .ret (h[0], h') ∧ (h[0] :: h').Perm h ∧ IsHeap less h' := by
  obtain ⟨n, hn⟩ : ∃ n, h.length = n + 1 := ⟨h.length - 1, by omega⟩
  have hnI : ((h.length : Int) - 1) = (n : Int) := by omega
  obtain ⟨s, hsw, hls, hps, hgs⟩ := heapSwap_spec h 0 n (by omega) (by omega)
  have hsw' : heapSwapI h 0 (n : Int) = .ret s := by rw [← hsw, ← heapSwapI_nat]; rfl
  by_cases h0 : n = 0
  · subst h0
    refine ⟨[], ?_, ?_, ?_⟩
    · simp only [popHeapFunc, hnI, hsw', Outcome.ret_bind, heapDownFunc, Int.toNat_natCast]
      rw [heapDownFuncLoop_leaf _ _ _ _ (by omega)]
      simp only [Outcome.ret_bind]
      show (idx s 0 >>= _) = _
      rw [idx_of_lt (by omega), hgs 0 (by omega) (by omega)]
      simp
    · obtain ⟨a, rfl⟩ := List.length_eq_one_iff.1 hn
      exact List.Perm.refl _
    · intro i hi; simp at hi
  · obtain ⟨h', m, e1, e2, e3, e4, e5, e6, e7⟩ := heapDownFunc_spec hw n 0 0 s (by omega) (by omega) (Nat.le_refl _)
      (by
        intro k hk0 hkn _ hp _ hk
        rw [hgs _ (by omega) (by omega), hgs _ (by omega) (by omega), if_neg (by omega), if_neg (by omega),
          if_neg (by omega), if_neg (by omega)]
        exact H k (by omega) hk0)
      (by intro k hk hk0 hp hi0; omega)
    have hlast : h'[n]'(by omega) = h[0] := by
      rw [e4 n (by omega) (by omega) (by omega), hgs n (by omega) (by omega), if_pos rfl]
    refine ⟨h'.take n, ?_, ?_, ?_⟩
    · simp only [popHeapFunc, hnI, hsw', Outcome.ret_bind, Int.toNat_natCast, e1]
      rw [idx_of_lt (by omega)]
      simp [hlast]
    · rw [← hlast]
      exact (take_perm_of_last h' n (by omega)).trans (e3.trans hps)
    · exact okAt_take h' n (by omega) (fun k hk0 hkn => e5 k hk0 hkn (Nat.zero_le _) (by omega))

theorem popHeapFunc_nil : popHeapFunc ([] : List T) less = .panic := rfl

/-- `RemoveHeapFunc` of an element that alone may be out of place. -/
theorem removeHeapFunc_but (hw : StrictWeak less) (h : List T) (i : Nat) (hi : i < h.length)
    (H1 : ∀ k (hk : k < h.length), 0 < k → k ≠ i → (k - 1) / 2 ≠ i → less h[k] (h[(k - 1) / 2]'(by omega)) = false)
    (H2 : ∀ k (hk : k < h.length), 0 < k → (k - 1) / 2 = i → 0 < i → less h[k] (h[(i - 1) / 2]'(by omega)) = false) :
    ∃ h', removeHeapFunc h (i : Int) less = .ret (h[i], h') ∧ (h[i] :: h').Perm h ∧ IsHeap less h' := by
  obtain ⟨n, hn⟩ : ∃ n, h.length = n + 1 := ⟨h.length - 1, by omega⟩
  have hnI : ((h.length : Int) - 1) = (n : Int) := by omega
  by_cases hni : n = i
  · subst hni
    refine ⟨h.take n, ?_, take_perm_of_last h n hn, okAt_take h n hn (fun k h0 hk hk' => H1 k hk' h0 (by omega) (by omega))⟩
    simp only [removeHeapFunc, removeHeapFuncSift, hnI, ne_eq, not_true_eq_false, if_false, Outcome.pure_eq,
      Outcome.ret_bind, Int.toNat_natCast]
    rw [if_neg (by omega), idx_of_lt (by omega)]
    rfl
  · obtain ⟨s, hsw, hls, hps, hgs⟩ := heapSwap_spec h i n (by omega) (by omega)
    have hsw' : heapSwapI h (i : Int) (n : Int) = .ret s := by rw [← hsw, ← heapSwapI_nat]
    have P2 : ∀ k (hk : k < n), 0 < k → (k - 1) / 2 = i → 0 < i →
        less (s[k]'(by omega)) (s[(i - 1) / 2]'(by omega)) = false := by
      intro k hk hk0 hp hi0
      rw [hgs _ (by omega) (by omega), hgs _ (by omega) (by omega), if_neg (by omega), if_neg (by omega),
        if_neg (by omega), if_neg (by omega)]
      exact H2 k (by omega) hk0 hp hi0
    obtain ⟨h', m, e1, e2, e3, e4, e5, e6, e7⟩ := heapDownFunc_spec hw n 0 i s (by omega) (by omega) (Nat.zero_le _)
      (by
        intro k hk0 hkn _ hp hki hk
        rw [hgs _ (by omega) (by omega), hgs _ (by omega) (by omega), if_neg (by omega), if_neg hki,
          if_neg (by omega), if_neg hp]
        exact H1 k (by omega) hk0 hki hp)
      (fun k hk hk0 hp hi0 _ => P2 k hk hk0 hp hi0)
    have hsift : ∃ h'', removeHeapFuncSift h (i : Int) (n : Int) less = .ret h'' ∧ h''.length = h.length ∧
        h''.Perm h ∧ (∀ hk : n < h''.length, h''[n] = h[i]) ∧ ∀ k, 0 < k → k < n → OkAt less h'' k := by
      simp only [removeHeapFuncSift, ne_eq]
      rw [if_pos (by omega), hsw']
      simp only [Outcome.ret_bind, Int.toNat_natCast, e1]
      cases m with
      | true =>
        refine ⟨h', rfl, by omega, e3.trans hps, ?_, ?_⟩
        · intro hk
          rw [e4 n hk (by omega) (by omega), hgs n (by omega) (by omega), if_pos rfl]
        · intro k hk0 hkn
          by_cases hki : k = i
          · subst hki; exact e7 rfl hk0 (Nat.zero_le _)
          · exact e5 k hk0 hkn (Nat.zero_le _) hki
      | false =>
        have := e6 rfl
        subst this
        obtain ⟨h'', g1, g2, g3, g4, g5⟩ := heapUpFuncLoop_spec hw n (i + 1) h' i (by omega) (by omega) (by omega)
          (fun k hk0 hkn hki => e5 k hk0 hkn (Nat.zero_le _) hki) P2
        refine ⟨h'', g1, by omega, g3.trans hps, ?_, g5⟩
        intro hk
        rw [g4 n hk (by omega) (by omega), hgs n (by omega) (by omega), if_pos rfl]
    obtain ⟨h'', s1, s2, s3, s4, s5⟩ := hsift
    have s4' := s4 (by omega)
    refine ⟨h''.take n, ?_, ?_, okAt_take h'' n (by omega) s5⟩
    · simp only [removeHeapFunc, hnI, s1, Outcome.ret_bind]
      rw [if_neg (by omega)]
      simp only [Int.toNat_natCast]
      rw [idx_of_lt (by omega), s4']
      rfl
    · rw [← s4']
      exact (take_perm_of_last h'' n (by omega)).trans s3

theorem removeHeapFunc_spec (hw : StrictWeak less) (h : List T) (i : Nat) (hi : i < h.length) (H : IsHeap less h) :
    ∃ h', removeHeapFunc h (i : Int) less = .ret (h[i], h') ∧ (h[i] :: h').Perm h ∧ IsHeap less h' :=
  removeHeapFunc_but hw h i hi (fun k hk hk0 _ _ => H k hk hk0) fun k hk hk0 hp hi0 => by
    have h1 := H k hk hk0
    simp only [hp] at h1
    exact hw.negTrans h1 (H i hi hi0)

/-- An element of a heap is given another value and then removed. -/
theorem removeHeapFunc_changed (hw : StrictWeak less) (h : List T) (i : Nat) (hi : i < h.length) (H : IsHeap less h) (x : T) :
    ∃ h', removeHeapFunc (h.set i x) (i : Int) less = .ret (x, h') ∧ (x :: h').Perm (h.set i x) ∧ IsHeap less h' := by
  obtain ⟨h', e, p, H'⟩ := removeHeapFunc_but hw (h.set i x) i (by simpa using hi)
    (fun k hk hk0 h1 h2 => by
      rw [List.getElem_set_ne (by omega), List.getElem_set_ne (by omega)]
      exact H k (by simpa using hk) hk0)
    (fun k hk hk0 hp hi0 => by
      rw [List.getElem_set_ne (by omega), List.getElem_set_ne (by omega)]
      have h1 := H k (by simpa using hk) hk0
      simp only [hp] at h1
      exact hw.negTrans h1 (H i hi hi0))
  rw [List.getElem_set_self] at e p
  exact ⟨h', e, p, H'⟩

theorem removeHeapFunc_panic (h : List T) (i : Int) (hi : i < 0 ∨ h.length ≤ i) :
    removeHeapFunc h i less = .panic := by
  simp only [removeHeapFunc, removeHeapFuncSift, ne_eq]
  by_cases hne : (h.length : Int) - 1 = i
  · simp only [hne, not_true_eq_false, if_false, Outcome.pure_eq, Outcome.ret_bind]
    rw [if_pos (by omega)]
  · rw [if_pos hne]
    have : heapSwapI h i (↑h.length - 1) = .panic := by
      rw [heapSwapI]
      split
      · rfl
      · apply heapSwap_panic; omega
    simp [this]

/-! ## Nothing is lost whatever the comparison does -/

theorem heapUpFuncLoop_any (f : Nat) (h : List T) (j : Nat) (hf : j < f) (hj : j < h.length) :
    ∃ h', heapUpFuncLoop less f h j = .ret h' ∧ h'.Perm h ∧
      ∀ k (hk : k < h'.length) (hk' : k < h.length), j < k → h'[k] = h[k] := by
  induction f generalizing h j with
  | zero => omega
  | succ f ih =>
    simp only [heapUpFuncLoop]
    by_cases hj0 : (j - 1) / 2 = j
    · rw [if_pos hj0]
      exact ⟨h, rfl, List.Perm.refl _, fun _ _ _ _ => rfl⟩
    · rw [if_neg hj0, idx_of_lt (by omega : j < h.length), idx_of_lt (by omega : (j - 1) / 2 < h.length)]
      simp only [Outcome.ret_bind]
      obtain ⟨s, hsw, hls, hps, hgs⟩ := heapSwap_spec h ((j - 1) / 2) j (by omega) (by omega)
      rw [hsw]
      cases less (h[j]'(by omega)) (h[(j - 1) / 2]'(by omega)) with
      | false => exact ⟨h, rfl, List.Perm.refl _, fun _ _ _ _ => rfl⟩
      | true =>
        obtain ⟨h', e1, e2, e3⟩ := ih s ((j - 1) / 2) (by omega) (by omega)
        refine ⟨h', e1, e2.trans hps, ?_⟩
        intro k hk hk' hjk
        rw [e3 k hk (by omega) (by omega), hgs _ (by omega) (by omega), if_neg (by omega), if_neg (by omega)]

theorem heapDownFuncLoop_any (f : Nat) (h : List T) (i n : Nat) (hf : n - i < f) (hn : n ≤ h.length) :
    ∃ h' i', heapDownFuncLoop less f h i n = .ret (h', i') ∧ h'.Perm h ∧ i ≤ i' ∧
      (∀ k (hk : k < h'.length) (hk' : k < h.length), (k < i ∨ n ≤ k) → h'[k] = h[k]) ∧ (i' = i → h' = h) := by
  induction f generalizing h i with
  | zero => omega
  | succ f ih =>
    by_cases h1 : 2 * i + 1 < n
    · obtain ⟨c, hcn, hcd, s, -, hls, hps, hgs, hstep, -⟩ := heapDownFuncLoop_step (less := less) f h i n hn h1
      rw [hstep]
      cases hl : less (h[c]'(by omega)) (h[i]'(by omega)) with
      | true =>
        obtain ⟨h', i', e1, e2, e3, e4, e5⟩ := ih s c (by omega) (by omega)
        refine ⟨h', i', by simpa using e1, e2.trans hps, by omega, ?_, by omega⟩
        intro k hk hk' hkk
        rw [e4 k hk (by omega) (by omega), hgs _ (by omega) (by omega), if_neg (by omega), if_neg (by omega)]
      | false => exact ⟨h, i, rfl, List.Perm.refl _, Nat.le_refl _, fun _ _ _ _ => rfl, fun _ => rfl⟩
    · rw [heapDownFuncLoop_leaf f h i n h1]
      exact ⟨h, i, rfl, List.Perm.refl _, Nat.le_refl _, fun _ _ _ _ => rfl, fun _ => rfl⟩

theorem heapDownFunc_any (h : List T) (i n : Nat) (hn : n ≤ h.length) :
    ∃ h' m, heapDownFunc h i n less = .ret (h', m) ∧ h'.Perm h ∧
      (∀ k (hk : k < h'.length) (hk' : k < h.length), (k < i ∨ n ≤ k) → h'[k] = h[k]) := by
  obtain ⟨h', i', e1, e2, e3, e4, _⟩ := heapDownFuncLoop_any (less := less) (n + 1) h i n (by omega) hn
  exact ⟨h', decide (i' > i), by simp [heapDownFunc, e1], e2, e4⟩

theorem makeHeapFuncLoop_any (n i : Nat) (h : List T) (hn : n ≤ h.length) :
    ∃ h', makeHeapFuncLoop less n i h = .ret h' ∧ h'.Perm h := by
  induction i generalizing h with
  | zero => exact ⟨h, rfl, List.Perm.refl _⟩
  | succ i ih =>
    obtain ⟨h', m, e1, e2, -⟩ := heapDownFunc_any (less := less) h i n hn
    obtain ⟨h'', g1, g2⟩ := ih h' (by rw [e2.length_eq]; exact hn)
    exact ⟨h'', by simp [makeHeapFuncLoop, e1, g1], g2.trans e2⟩

theorem pushHeapFunc_any (h : List T) (v : T) :
    ∃ h', pushHeapFunc h v less = .ret h' ∧ h'.Perm (v :: h) := by
  obtain ⟨h', e1, e2, -⟩ := heapUpFuncLoop_any (less := less) (h.length + 1) (h ++ [v]) h.length (by omega) (by simp)
  exact ⟨h', by simp [pushHeapFunc, heapUpFunc, e1], e2.trans List.perm_append_comm⟩

theorem popHeapFunc_any (h : List T) (hne : 0 < h.length) :
    ∃ h', popHeapFunc h less = .ret (h[0], h') ∧ (h[0] :: h').Perm h := by
  obtain ⟨n, hn⟩ : ∃ n, h.length = n + 1 := ⟨h.length - 1, by omega⟩
  have hnI : ((h.length : Int) - 1) = (n : Int) := by omega
  obtain ⟨s, hsw, hls, hps, hgs⟩ := heapSwap_spec h 0 n (by omega) (by omega)
  have hsw' : heapSwapI h 0 (n : Int) = .ret s := by rw [← hsw, ← heapSwapI_nat]; rfl
  obtain ⟨h', m, e1, e2, e3⟩ := heapDownFunc_any (less := less) s 0 n (by omega)
  have hlen := e2.length_eq
  have hlast : h'[n]'(by omega) = h[0] := by
    rw [e3 n (by omega) (by omega) (by omega), hgs n (by omega) (by omega), if_pos rfl]
  refine ⟨h'.take n, ?_, ?_⟩
  · simp only [popHeapFunc, hnI, hsw', Outcome.ret_bind, Int.toNat_natCast, e1]
    rw [idx_of_lt (by omega)]
    simp [hlast]
  · rw [← hlast]
    exact (take_perm_of_last h' n (by omega)).trans (e2.trans hps)

theorem removeHeapFunc_any (h : List T) (i : Nat) (hi : i < h.length) :
    ∃ h', removeHeapFunc h (i : Int) less = .ret (h[i], h') ∧ (h[i] :: h').Perm h := by
  obtain ⟨n, hn⟩ : ∃ n, h.length = n + 1 := ⟨h.length - 1, by omega⟩
  have hnI : ((h.length : Int) - 1) = (n : Int) := by omega
  have hsift : ∃ h'', removeHeapFuncSift h (i : Int) (n : Int) less = .ret h'' ∧ h''.Perm h ∧
      (∀ hk : n < h''.length, h''[n] = h[i]) := by
    simp only [removeHeapFuncSift, ne_eq]
    by_cases hni : n = i
    · subst hni
      rw [if_neg (by simp)]
      exact ⟨h, rfl, List.Perm.refl _, fun _ => rfl⟩
    · obtain ⟨s, hsw, hls, hps, hgs⟩ := heapSwap_spec h i n (by omega) (by omega)
      have hsw' : heapSwapI h (i : Int) (n : Int) = .ret s := by rw [← hsw, ← heapSwapI_nat]
      rw [if_pos (by omega), hsw']
      obtain ⟨h', m, e1, e2, e3⟩ := heapDownFunc_any (less := less) s i n (by omega)
      have hlen := e2.length_eq
      simp only [Outcome.ret_bind, Int.toNat_natCast, e1]
      have hlast : h'[n]'(by omega) = h[i] := by
        rw [e3 n (by omega) (by omega) (by omega), hgs n (by omega) (by omega), if_pos rfl]
      cases m with
      | true => exact ⟨h', rfl, e2.trans hps, fun _ => hlast⟩
      | false =>
        obtain ⟨h'', g1, g2, g3⟩ := heapUpFuncLoop_any (less := less) (i + 1) h' i (by omega) (by omega)
        refine ⟨h'', g1, g2.trans (e2.trans hps), ?_⟩
        intro hk
        rw [g3 n hk (by omega) (by omega), hlast]
  obtain ⟨h'', s1, s2, s3⟩ := hsift
  have hlen := s2.length_eq
  have s4' := s3 (by omega)
  refine ⟨h''.take n, ?_, ?_⟩
  · simp only [removeHeapFunc, hnI, s1, Outcome.ret_bind]
    rw [if_neg (by omega)]
    simp only [Int.toNat_natCast]
    rw [idx_of_lt (by omega), s4']
    rfl
  · rw [← s4']
    exact (take_perm_of_last h'' n (by omega)).trans s2

end Stl4go
