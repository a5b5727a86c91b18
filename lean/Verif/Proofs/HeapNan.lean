import Verif.Spec.HeapNan
import Verif.Proofs.HeapApi
import Verif.Proofs.Rename
/-! # Heaps with elements that compare with nothing -/
namespace Stl4go
variable {T : Type} {less : T → T → Bool}

theorem InertStay.refl (h : List T) : InertStay less h h := ⟨rfl, fun _ _ _ _ => rfl⟩

theorem InertStay.trans {h1 h2 h3 : List T} (a : InertStay less h1 h2) (b : InertStay less h2 h3) : InertStay less h1 h3 := by
  refine ⟨by rw [b.1, a.1], fun k hk hk' h => ?_⟩
  have hk2 : k < h2.length := by rw [a.1]; exact hk
  rcases h with h | h
  · have e := a.2 k hk hk2 (.inl h)
    rw [b.2 k hk2 hk' (.inl (by rw [e]; exact h)), e]
  · have e := b.2 k hk2 hk' (.inr h)
    rw [e, a.2 k hk hk2 (.inr (by rw [← e]; exact h))]

/-- Exchanging two elements that compare moves no inert element. -/
theorem InertStay.swap {h s : List T} {i j : Nat} (hi : i < h.length) (hj : j < h.length) (hlen : s.length = h.length)
    (hg : ∀ k (hk : k < s.length) (hk' : k < h.length), s[k] = if k = j then h[i] else if k = i then h[j] else h[k])
    (hl : less h[j] h[i] = true) : InertStay less h s := by
  refine ⟨hlen, fun k hk hk' hin => ?_⟩
  have e := hg k hk' hk
  have n1 : ¬ Inert less h[i] := fun h' => by rw [(h' h[j]).1] at hl; exact nomatch hl
  have n2 : ¬ Inert less h[j] := fun h' => by rw [(h' h[i]).2] at hl; exact nomatch hl
  by_cases h1 : k = j
  · subst h1
    rw [if_pos rfl] at e
    rw [e] at hin
    rcases hin with g | g
    · exact absurd g n2
    · exact absurd g n1
  · by_cases h2 : k = i
    · subst h2
      rw [if_neg h1, if_pos rfl] at e
      rw [e] at hin
      rcases hin with g | g
      · exact absurd g n1
      · exact absurd g n2
    · rw [if_neg h1, if_neg h2] at e
      exact e

theorem heapUpFuncLoop_inertStay (f : Nat) (h : List T) (j : Nat) (hf : j < f) (hj : j < h.length) :
    ∃ h', heapUpFuncLoop less f h j = .ret h' ∧ InertStay less h h' := by
  induction f generalizing h j with
  | zero => omega
  | succ f ih =>
    simp only [heapUpFuncLoop]
    by_cases hj0 : (j - 1) / 2 = j
    · rw [if_pos hj0]
      exact ⟨h, rfl, .refl _⟩
    · rw [if_neg hj0, idx_of_lt (by omega : j < h.length), idx_of_lt (by omega : (j - 1) / 2 < h.length)]
      simp only [Outcome.ret_bind]
      obtain ⟨s, hsw, hls, hps, hgs⟩ := heapSwap_spec h ((j - 1) / 2) j (by omega) (by omega)
      rw [hsw]
      cases hl : less (h[j]'(by omega)) (h[(j - 1) / 2]'(by omega)) with
      | false => exact ⟨h, rfl, .refl _⟩
      | true =>
        obtain ⟨h', e1, e2⟩ := ih s ((j - 1) / 2) (by omega) (by omega)
        exact ⟨h', e1, (InertStay.swap (by omega) hj hls hgs hl).trans e2⟩

theorem heapDownFuncLoop_inertStay (f : Nat) (h : List T) (i n : Nat) (hf : n - i < f) (hn : n ≤ h.length) :
    ∃ h' i', heapDownFuncLoop less f h i n = .ret (h', i') ∧ InertStay less h h' := by
  induction f generalizing h i with
  | zero => omega
  | succ f ih =>
    by_cases h1 : 2 * i + 1 < n
    · obtain ⟨c, hcn, hcd, s, -, hls, hps, hgs, hstep, -⟩ := heapDownFuncLoop_step (less := less) f h i n hn h1
      rw [hstep]
      cases hl : less (h[c]'(by omega)) (h[i]'(by omega)) with
      | true =>
        obtain ⟨h', i', e1, e2⟩ := ih s c (by omega) (by omega)
        exact ⟨h', i', by simpa using e1, (InertStay.swap (by omega) (by omega) hls hgs hl).trans e2⟩
      | false => exact ⟨h, i, rfl, .refl _⟩
    · rw [heapDownFuncLoop_leaf f h i n h1]
      exact ⟨h, i, rfl, .refl _⟩

theorem makeHeapFuncLoop_inertStay (n i : Nat) (h : List T) (hn : n ≤ h.length) :
    ∃ h', makeHeapFuncLoop less n i h = .ret h' ∧ InertStay less h h' := by
  induction i generalizing h with
  | zero => exact ⟨h, rfl, .refl _⟩
  | succ i ih =>
    obtain ⟨h', i', e1, e2⟩ := heapDownFuncLoop_inertStay (less := less) (n + 1) h i n (by omega) hn
    obtain ⟨h'', g1, g2⟩ := ih h' (by rw [e2.1]; exact hn)
    exact ⟨h'', by simp [makeHeapFuncLoop, heapDownFunc, e1, g1], e2.trans g2⟩

/-- An inert element does not move down. -/
theorem heapDownFuncLoop_inert (f : Nat) (h : List T) (i n : Nat) (hn : n ≤ h.length) (hi : i < h.length) (hz : Inert less h[i]) :
    heapDownFuncLoop less (f + 1) h i n = .ret (h, i) := by
  by_cases h1 : 2 * i + 1 < n
  · obtain ⟨c, hcn, hcd, s, -, hls, hps, hgs, hstep, -⟩ := heapDownFuncLoop_step (less := less) f h i n hn h1
    rw [hstep, (hz _).1]; rfl
  · exact heapDownFuncLoop_leaf f h i n h1

/-- An inert element does not move up. -/
theorem heapUpFunc_inert (h : List T) (j : Nat) (hj : j < h.length) (hz : Inert less h[j]) : heapUpFunc h j less = .ret h := by
  simp only [heapUpFunc, heapUpFuncLoop]
  by_cases hj0 : (j - 1) / 2 = j
  · rw [if_pos hj0]; rfl
  · rw [if_neg hj0, idx_of_lt hj, idx_of_lt (by omega : (j - 1) / 2 < h.length)]
    simp only [Outcome.ret_bind, (hz _).2]
    rfl

theorem take_swapped_last (h : List T) (i n : Nat) (hn : h.length = n + 1) (hi : i < h.length) :
    (swapped h i n hi (by omega)).take n = (h.set i (h[n]'(by omega))).dropLast := by
  rw [List.dropLast_eq_take]
  simp only [swapped, List.length_set, hn, Nat.add_sub_cancel]
  rw [List.take_set_of_le (Nat.le_refl n)]

theorem popHeapFunc_last (h : List T) (n : Nat) (hn : h.length = n + 1) (hz : Inert less (h[n]'(by omega))) :
    popHeapFunc h less = .ret (h[0], (h.set 0 (h[n]'(by omega))).dropLast) := by
  have hnI : ((h.length : Int) - 1) = (n : Int) := by omega
  have hsw : heapSwapI h 0 (n : Int) = .ret (swapped h 0 n (by omega) (by omega)) := by
    rw [← heapSwap_eq h 0 n (by omega) (by omega), ← heapSwapI_nat]; rfl
  have hd : heapDownFunc (swapped h 0 n (by omega) (by omega)) 0 n less = .ret (swapped h 0 n (by omega) (by omega), false) := by
    have : heapDownFuncLoop less (n + 1) (swapped h 0 n (by omega) (by omega)) 0 n = .ret (swapped h 0 n (by omega) (by omega), 0) := by
      by_cases h0 : n = 0
      · subst h0; exact heapDownFuncLoop_leaf _ _ _ _ (by omega)
      · refine heapDownFuncLoop_inert _ _ _ _ (by simp; omega) (by simp; omega) ?_
        rw [getElem_swapped, if_neg (by omega), if_pos rfl]
        exact hz
    simp [heapDownFunc, this]
  simp only [popHeapFunc, hnI, hsw, Outcome.ret_bind, Int.toNat_natCast, hd]
  rw [idx_of_lt (by simp; omega)]
  simp only [Outcome.ret_bind, Outcome.pure_eq, getElem_swapped, if_true]
  rw [take_swapped_last h 0 n hn (by omega)]

theorem removeHeapFunc_last (h : List T) (n i : Nat) (hn : h.length = n + 1) (hi : i < h.length) (hz : Inert less (h[n]'(by omega))) :
    removeHeapFunc h (i : Int) less = .ret (h[i], (h.set i (h[n]'(by omega))).dropLast) := by
  have hnI : ((h.length : Int) - 1) = (n : Int) := by omega
  have hs : removeHeapFuncSift h (i : Int) (n : Int) less = .ret (swapped h i n hi (by omega)) := by
    simp only [removeHeapFuncSift, ne_eq]
    by_cases hni : n = i
    · subst hni
      rw [if_neg (by simp)]
      simp [swapped]
    · have hsw : heapSwapI h (i : Int) (n : Int) = .ret (swapped h i n hi (by omega)) := by
        rw [← heapSwap_eq h i n hi (by omega), ← heapSwapI_nat]
      have hz' : Inert less ((swapped h i n hi (by omega))[i]'(by simp; exact hi)) := by
        rw [getElem_swapped, if_neg (by omega), if_pos rfl]; exact hz
      have hd : heapDownFunc (swapped h i n hi (by omega)) i n less = .ret (swapped h i n hi (by omega), false) := by
        have := heapDownFuncLoop_inert (less := less) n (swapped h i n hi (by omega)) i n (by simp; omega) (by simp; omega) hz'
        simp [heapDownFunc, this]
      rw [if_pos (by omega), hsw]
      simp only [Outcome.ret_bind, Int.toNat_natCast, hd, Bool.not_false, if_true]
      exact heapUpFunc_inert _ _ _ hz'
  simp only [removeHeapFunc, hnI, hs, Outcome.ret_bind]
  rw [if_neg (by omega), Int.toNat_natCast, idx_of_lt (by simp; omega)]
  simp only [Outcome.ret_bind, Outcome.pure_eq, getElem_swapped, if_true]
  rw [take_swapped_last h i n hn hi]

/-! ## The order after a push -/

theorem heapUpFuncLoop_half (hw : HalfWeak less) (n : Nat) (f : Nat) (h : List T) (j : Nat) (hf : j < f)
    (hn : n ≤ h.length) (hj : j < n)
    (P1 : ∀ k, 0 < k → k < n → k ≠ j → OkAt less h k)
    (P2 : ∀ k (hk : k < n), 0 < k → (k - 1) / 2 = j → 0 < j → less h[k] (h[(j - 1) / 2]'(by omega)) = false) :
    ∃ h', heapUpFuncLoop less f h j = .ret h' ∧ h'.length = h.length ∧ h'.Perm h ∧
      (∀ k, 0 < k → k < n → OkAt less h' k) := by
  have neg : ∀ a b c v, less a b = false → less b c = false → less v b = true → less a c = false := by
    intro a b c v h1 h2 h3
    cases h : less a c with
    | false => rfl
    | true =>
      rcases hw.between a b c h ⟨v, .inl h3⟩ with g | g
      · rw [h1] at g; exact nomatch g
      · rw [h2] at g; exact nomatch g
  induction f generalizing h j with
  | zero => omega
  | succ f ih =>
    simp only [heapUpFuncLoop]
    by_cases hj0 : (j - 1) / 2 = j
    · rw [if_pos hj0]
      have : j = 0 := by omega
      subst this
      exact ⟨h, rfl, rfl, List.Perm.refl _, fun k hk0 hkn => P1 k hk0 hkn (by omega)⟩
    · rw [if_neg hj0]
      have hj' : 0 < j := by omega
      rw [idx_of_lt (by omega : j < h.length), idx_of_lt (by omega : (j - 1) / 2 < h.length)]
      simp only [Outcome.ret_bind]
      obtain ⟨s, hsw, hls, hps, hgs⟩ := heapSwap_spec h ((j - 1) / 2) j (by omega) (by omega)
      rw [hsw]
      cases hl : less (h[j]'(by omega)) (h[(j - 1) / 2]'(by omega)) with
      | false =>
        refine ⟨h, by simp, rfl, List.Perm.refl _, ?_⟩
        intro k hk0 hkn
        by_cases hkj : k = j
        · subst hkj; intro hk; exact hl
        · exact P1 k hk0 hkn hkj
      | true =>
        simp only [Bool.not_true, Bool.false_eq_true, if_false, Outcome.ret_bind]
        obtain ⟨h', e1, e2, e3, e5⟩ := ih s ((j - 1) / 2) (by omega) (by omega) (by omega) (by
            intro k hk0 hkn hki hk
            rw [hgs _ (by omega) (by omega), hgs _ (by omega) (by omega)]
            by_cases hkj : k = j
            · subst hkj
              rw [if_pos rfl, if_neg (by omega), if_pos rfl]
              exact hw.asymm _ _ hl
            · rw [if_neg hkj, if_neg hki]
              by_cases hkp : (k - 1) / 2 = j
              · rw [if_pos hkp]
                exact P2 k hkn hk0 hkp hj'
              · rw [if_neg hkp]
                by_cases hkp' : (k - 1) / 2 = (j - 1) / 2
                · rw [if_pos hkp']
                  have := P1 k hk0 hkn hkj (by omega)
                  simp only [hkp'] at this
                  exact neg _ _ _ _ this (hw.asymm _ _ hl) hl
                · rw [if_neg hkp']
                  exact P1 k hk0 hkn hkj (by omega)) (by
            intro k hkn hk0 hkp hi0
            rw [hgs _ (by omega) (by omega), hgs _ (by omega) (by omega)]
            have hoki : less (h[(j - 1) / 2]'(by omega)) (h[((j - 1) / 2 - 1) / 2]'(by omega)) = false :=
              P1 ((j - 1) / 2) (by omega) (by omega) (by omega) (by omega)
            rw [if_neg (by omega : ¬ ((j - 1) / 2 - 1) / 2 = j), if_neg (by omega : ¬ ((j - 1) / 2 - 1) / 2 = (j - 1) / 2)]
            by_cases hkj : k = j
            · subst hkj
              rw [if_pos rfl]
              exact hoki
            · rw [if_neg hkj, if_neg (by omega)]
              have := P1 k hk0 hkn hkj (by omega)
              simp only [hkp] at this
              exact neg _ _ _ _ this hoki hl)
        exact ⟨h', e1, by omega, e3.trans hps, e5⟩

theorem pushHeapFunc_half (hw : HalfWeak less) (h : List T) (v : T) (H : IsHeap less h) :
    ∃ h', pushHeapFunc h v less = .ret h' ∧ h'.Perm (v :: h) ∧ IsHeap less h' := by
  obtain ⟨h', e1, e2, e3, e5⟩ := heapUpFuncLoop_half hw (h.length + 1) (h.length + 1) (h ++ [v]) h.length
    (by omega) (by simp) (by omega)
    (by
      intro k h0 hk hne hk'
      rw [List.getElem_append_left (by omega), List.getElem_append_left (by omega)]
      exact H k (by omega) h0)
    (by intro k hk h0 hp; omega)
  refine ⟨h', by simp [pushHeapFunc, heapUpFunc, e1], e3.trans ?_, (isHeap_iff_okAt _ _).2 ?_⟩
  · exact List.perm_append_comm
  · intro k h0 hk
    simp at e2
    exact e5 k h0 (by omega)

/-! ## What is behind the heap does not matter -/

theorem idx_append_left (l t : List T) (i : Nat) (hi : i < l.length) : idx (l ++ t) i = idx l i := by
  rw [idx_of_lt hi, idx_of_lt (by simp; omega), List.getElem_append_left hi]

theorem heapSwap_append (l t : List T) (i j : Nat) (hi : i < l.length) (hj : j < l.length) :
    heapSwap (l ++ t) i j = (· ++ t) <$> heapSwap l i j := by
  rw [heapSwap_eq _ _ _ (by simp; omega) (by simp; omega), heapSwap_eq _ _ _ hi hj]
  show _ = Outcome.ret _
  simp only [swapped, List.getElem_append_left hi, List.getElem_append_left hj, List.set_append_left _ _ hi]
  rw [List.set_append_left _ _ (by simpa using hj)]

theorem heapDownFuncLoop_append (f : Nat) : ∀ (l t : List T) (i n : Nat), n ≤ l.length →
    heapDownFuncLoop less f (l ++ t) i n = (fun r => (r.1 ++ t, r.2)) <$> heapDownFuncLoop less f l i n := by
  induction f with
  | zero => intro l t i n _; rfl
  | succ f ih =>
    intro l t i n hn
    simp only [heapDownFuncLoop]
    by_cases h1 : 2 * i + 1 ≥ n
    · simp only [if_pos h1]; rfl
    · simp only [if_neg h1]
      have hc : heapSmallerChildFunc less (l ++ t) (2 * i + 1) n = heapSmallerChildFunc less l (2 * i + 1) n := by
        simp only [heapSmallerChildFunc]
        by_cases h2 : 2 * i + 1 + 1 < n
        · simp only [if_pos h2, idx_append_left l t (2 * i + 1 + 1) (by omega), idx_append_left l t (2 * i + 1) (by omega)]
        · simp only [if_neg h2]
      have hb : ∃ j, heapSmallerChildFunc less l (2 * i + 1) n = .ret j ∧ i < j ∧ j < n := by
        simp only [heapSmallerChildFunc]
        by_cases h2 : 2 * i + 1 + 1 < n
        · rw [if_pos h2, idx_of_lt (by omega), idx_of_lt (by omega)]
          simp only [Outcome.ret_bind]
          split
          · exact ⟨_, rfl, by omega, by omega⟩
          · exact ⟨_, rfl, by omega, by omega⟩
        · rw [if_neg h2]
          exact ⟨_, rfl, by omega, by omega⟩
      obtain ⟨j, ej, hij, hjn⟩ := hb
      rw [hc, ej]
      simp only [Outcome.ret_bind]
      rw [idx_append_left l t j (by omega), idx_append_left l t i (by omega), idx_of_lt (by omega : j < l.length), idx_of_lt (by omega : i < l.length)]
      simp only [Outcome.ret_bind]
      cases less (l[j]'(by omega)) (l[i]'(by omega)) with
      | false => rfl
      | true =>
        simp only [Bool.not_true, Bool.false_eq_true, if_false]
        rw [heapSwap_append l t i j (by omega) (by omega), heapSwap_eq l i j (by omega) (by omega)]
        exact ih _ t j n (by simpa using hn)

/-- The element that is popped has no part in what happens. -/
theorem popHeapFunc_root (x y : T) (mid : List T) : popHeapFunc (y :: mid) less = (fun r => (y, r.2)) <$> popHeapFunc (x :: mid) less := by
  have key : ∀ z : T, ∃ out : List T, (∀ z : T, popHeapFunc (z :: mid) less = .ret (z, out)) := by
    intro _
    rcases List.eq_nil_or_concat mid with rfl | ⟨l, b, rfl⟩
    · exact ⟨[], fun z => rfl⟩
    · have hsw : ∀ z, heapSwapI (z :: (l ++ [b])) 0 ((l.length + 1 : Nat) : Int) = .ret ((b :: l) ++ [z]) := by
        intro z
        have : heapSwapI (z :: (l ++ [b])) 0 ((l.length + 1 : Nat) : Int) = heapSwap (z :: (l ++ [b])) 0 (l.length + 1) := by
          rw [← heapSwapI_nat]; rfl
        rw [this, heapSwap_eq _ _ _ (by simp) (by simp)]
        simp [swapped]
      obtain ⟨h', i', e1, e2, -⟩ := heapDownFuncLoop_any (less := less) (l.length + 1 + 1) (b :: l) 0 (l.length + 1) (by omega) (by simp)
      have hlen : h'.length = l.length + 1 := by rw [e2.length_eq]; rfl
      refine ⟨h', fun z => ?_⟩
      have hnI : (((z :: (l ++ [b])).length : Int) - 1) = ((l.length + 1 : Nat) : Int) := by simp
      have hd : heapDownFunc ((b :: l) ++ [z]) 0 (l.length + 1) less = .ret (h' ++ [z], decide (i' > 0)) := by
        simp only [heapDownFunc]
        rw [heapDownFuncLoop_append _ _ _ _ _ (by simp), e1]; rfl
      simp only [popHeapFunc, List.concat_eq_append, hnI, hsw, Outcome.ret_bind, Int.toNat_natCast, hd]
      rw [idx_of_lt (by simp [hlen])]
      simp only [Outcome.ret_bind, Outcome.pure_eq]
      rw [List.getElem_append_right (by omega), List.take_left' hlen]
      simp [hlen]
  obtain ⟨out, h⟩ := key x
  rw [h, h]; rfl

/-! ## Inert elements at the end -/

theorem heapDownFuncLoop_tail (s nans : List T) (hz : ∀ z ∈ nans, Inert less z) : ∀ (f1 f2 : Nat) (s' : List T) (i : Nat),
    s'.length = s.length → s.length - i < f1 → s.length - i < f2 → i < s.length →
    heapDownFuncLoop less f1 (s' ++ nans) i (s.length + nans.length) = (fun r => (r.1 ++ nans, r.2)) <$> heapDownFuncLoop less f2 s' i s.length := by
  intro f1
  induction f1 with
  | zero => intro f2 s' i _ h; omega
  | succ f1 ih =>
    intro f2 s' i hl hf1 hf2 hi
    obtain ⟨f2, rfl⟩ : ∃ g, f2 = g + 1 := ⟨f2 - 1, by omega⟩
    have hin : ∀ k (hk : k < (s' ++ nans).length), s.length ≤ k → Inert less (s' ++ nans)[k] := by
      intro k hk hsk
      rw [List.getElem_append_right (by omega)]
      exact hz _ (List.getElem_mem _)
    simp only [heapDownFuncLoop]
    by_cases h1 : 2 * i + 1 ≥ s.length
    · simp only [if_pos h1]
      by_cases h2 : 2 * i + 1 ≥ s.length + nans.length
      · rw [if_pos h2]; rfl
      · rw [if_neg h2]
        have hb : ∃ j, heapSmallerChildFunc less (s' ++ nans) (2 * i + 1) (s.length + nans.length) = .ret j ∧ s.length ≤ j ∧ j < s.length + nans.length := by
          simp only [heapSmallerChildFunc]
          by_cases h3 : 2 * i + 1 + 1 < s.length + nans.length
          · rw [if_pos h3, idx_of_lt (by simp; omega), idx_of_lt (by simp; omega)]
            simp only [Outcome.ret_bind]
            split
            · exact ⟨_, rfl, by omega, by omega⟩
            · exact ⟨_, rfl, by omega, by omega⟩
          · rw [if_neg h3]; exact ⟨_, rfl, by omega, by omega⟩
        obtain ⟨j, ej, hj1, hj2⟩ := hb
        rw [ej]
        simp only [Outcome.ret_bind]
        rw [idx_of_lt (by simp; omega), idx_of_lt (by simp; omega)]
        simp only [Outcome.ret_bind, (hin j (by simp; omega) hj1 _).2]
        rfl
    · simp only [if_neg h1]
      rw [if_neg (by omega)]
      have hc : ∃ j, heapSmallerChildFunc less s' (2 * i + 1) s.length = .ret j ∧ i < j ∧ j < s.length ∧
          heapSmallerChildFunc less (s' ++ nans) (2 * i + 1) (s.length + nans.length) = .ret j := by
        simp only [heapSmallerChildFunc]
        by_cases h3 : 2 * i + 1 + 1 < s.length
        · rw [if_pos h3, if_pos (by omega), idx_append_left s' nans _ (by omega), idx_append_left s' nans _ (by omega), idx_of_lt (by omega), idx_of_lt (by omega)]
          simp only [Outcome.ret_bind]
          split
          · exact ⟨_, rfl, by omega, by omega, rfl⟩
          · exact ⟨_, rfl, by omega, by omega, rfl⟩
        · rw [if_neg h3]
          refine ⟨_, rfl, by omega, by omega, ?_⟩
          by_cases h4 : 2 * i + 1 + 1 < s.length + nans.length
          · rw [if_pos h4, idx_of_lt (by simp; omega), idx_of_lt (by simp; omega)]
            simp only [Outcome.ret_bind, (hin (2 * i + 1 + 1) (by simp; omega) (by omega) _).2]
            rfl
          · rw [if_neg h4]; rfl
      obtain ⟨j, ej, hij, hjn, ej'⟩ := hc
      rw [ej, ej']
      simp only [Outcome.ret_bind]
      rw [idx_append_left s' nans j (by omega), idx_append_left s' nans i (by omega), idx_of_lt (by omega : j < s'.length), idx_of_lt (by omega : i < s'.length)]
      simp only [Outcome.ret_bind]
      cases less (s'[j]'(by omega)) (s'[i]'(by omega)) with
      | false => rfl
      | true =>
        simp only [Bool.not_true, Bool.false_eq_true, if_false]
        rw [heapSwap_append s' nans i j (by omega) (by omega), heapSwap_eq s' i j (by omega) (by omega)]
        exact ih f2 _ j (by simpa using hl) (by omega) (by omega) hjn

theorem makeHeapFuncLoop_tail (s nans : List T) (hz : ∀ z ∈ nans, Inert less z) (k : Nat) : ∀ s' : List T, s'.length = s.length →
    k ≤ s.length + nans.length →
    makeHeapFuncLoop less (s.length + nans.length) k (s' ++ nans) = (· ++ nans) <$> makeHeapFuncLoop less s.length (min k (s.length / 2)) s' := by
  induction k with
  | zero => intro s' _ _; simp only [Nat.zero_min]; rfl
  | succ k ih =>
    intro s' hl hk
    by_cases h1 : k < s.length / 2
    · rw [Nat.min_eq_left (by omega)]
      have ih := ih
      simp only [makeHeapFuncLoop, heapDownFunc]
      rw [heapDownFuncLoop_tail s nans hz _ (s.length + 1) s' k hl (by omega) (by omega) (by omega)]
      obtain ⟨h', i', e1, e2, -⟩ := heapDownFuncLoop_any (less := less) (s.length + 1) s' k s.length (by omega) (by omega)
      rw [e1]
      have := ih h' (by rw [e2.length_eq]; exact hl) (by omega)
      rw [Nat.min_eq_left (by omega)] at this
      exact this
    · rw [Nat.min_eq_right (by omega)]
      have hd : heapDownFuncLoop less (s.length + nans.length + 1) (s' ++ nans) k (s.length + nans.length) = .ret (s' ++ nans, k) := by
        by_cases h2 : k < s.length
        · rw [heapDownFuncLoop_tail s nans hz _ (s.length + 1) s' k hl (by omega) (by omega) h2, heapDownFuncLoop_leaf _ _ _ _ (by omega)]
          rfl
        · refine heapDownFuncLoop_inert _ _ _ _ (by simp; omega) (by simp; omega) ?_
          rw [List.getElem_append_right (by omega)]
          exact hz _ (List.getElem_mem _)
      simp only [makeHeapFuncLoop, heapDownFunc, hd, Outcome.ret_bind, Outcome.pure_eq]
      rw [ih s' hl (by omega), Nat.min_eq_right (by omega)]

theorem makeHeapFunc_tail (s nans : List T) (hz : ∀ z ∈ nans, Inert less z) :
    makeHeapFunc (s ++ nans) less = (· ++ nans) <$> makeHeapFunc s less := by
  simp only [makeHeapFunc, List.length_append]
  rw [makeHeapFuncLoop_tail s nans hz _ s rfl (by omega), Nat.min_eq_right (by omega)]

end Stl4go
