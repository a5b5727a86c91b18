import Verif.Model.HeapAny
import Verif.Proofs.HeapApi
import Verif.Spec.Heap
/-! # Laws that relate calls of the heap functions -/
namespace Stl4go
variable {T U τ : Type}

/-! ## Renaming the elements -/

theorem idx_map (f : T → U) (a : List T) (i : Nat) : idx (a.map f) i = f <$> idx a i := by
  simp only [idx, List.getElem?_map]
  cases a[i]? <;> rfl

theorem setIdx_map (f : T → U) (a : List T) (i : Nat) (v : T) : setIdx (a.map f) i (f v) = List.map f <$> setIdx a i v := by
  simp only [setIdx, List.length_map]
  split
  · rw [← List.map_set]; rfl
  · rfl

theorem heapSwap_map (f : T → U) (a : List T) (i j : Nat) : heapSwap (a.map f) i j = List.map f <$> heapSwap a i j := by
  simp only [heapSwap, idx_map]
  cases idx a j with
  | ret x => cases idx a i with
    | ret y =>
      show (do let h ← setIdx (a.map f) i (f x); setIdx h j (f y)) = _
      rw [setIdx_map]
      show _ = List.map f <$> (do let h ← setIdx a i x; setIdx h j y)
      cases setIdx a i x with
      | ret z => exact setIdx_map f z j y
      | panic => rfl
      | diverge => rfl
    | panic => rfl
    | diverge => rfl
  | panic => rfl
  | diverge => rfl

theorem heapSwapI_map (f : T → U) (a : List T) (i j : Int) : heapSwapI (a.map f) i j = List.map f <$> heapSwapI a i j := by
  simp only [heapSwapI]
  split
  · rfl
  · exact heapSwap_map f a _ _

section
variable {f : T → U} {less : T → T → Bool} {less' : U → U → Bool} (hf : ∀ a b, less' (f a) (f b) = less a b)
include hf

theorem heapUpFuncLoop_map (fuel : Nat) : ∀ (h : List T) (j : Nat),
    heapUpFuncLoop less' fuel (h.map f) j = List.map f <$> heapUpFuncLoop less fuel h j := by
  induction fuel with
  | zero => intro h j; rfl
  | succ fuel ih =>
    intro h j
    simp only [heapUpFuncLoop]
    by_cases hij : (j - 1) / 2 = j
    · simp only [if_pos hij]; rfl
    · simp only [if_neg hij, idx_map]
      cases idx h j with
      | ret x => cases idx h ((j - 1) / 2) with
        | ret y =>
          show (if (!less' (f x) (f y)) = true then _ else _) = List.map f <$> (if (!less x y) = true then _ else _)
          rw [hf]
          by_cases hb : (!less x y) = true
          · simp only [if_pos hb]; rfl
          · simp only [if_neg hb, heapSwap_map]
            cases heapSwap h ((j - 1) / 2) j with
            | ret z => exact ih z _
            | panic => rfl
            | diverge => rfl
        | panic => rfl
        | diverge => rfl
      | panic => rfl
      | diverge => rfl

theorem heapSmallerChildFunc_map (h : List T) (j1 n : Nat) : heapSmallerChildFunc less' (h.map f) j1 n = heapSmallerChildFunc less h j1 n := by
  simp only [heapSmallerChildFunc]
  by_cases hj : j1 + 1 < n
  · simp only [if_pos hj, idx_map]
    cases idx h (j1 + 1) with
    | ret x => cases idx h j1 with
      | ret y =>
        show Outcome.ret (if less' (f x) (f y) = true then j1 + 1 else j1) = .ret (if less x y = true then j1 + 1 else j1)
        rw [hf]
      | panic => rfl
      | diverge => rfl
    | panic => rfl
    | diverge => rfl
  · simp only [if_neg hj]

theorem heapDownFuncLoop_map (fuel : Nat) : ∀ (h : List T) (i n : Nat),
    heapDownFuncLoop less' fuel (h.map f) i n = (fun r => (r.1.map f, r.2)) <$> heapDownFuncLoop less fuel h i n := by
  induction fuel with
  | zero => intro h i n; rfl
  | succ fuel ih =>
    intro h i n
    simp only [heapDownFuncLoop]
    by_cases hn : 2 * i + 1 ≥ n
    · simp only [if_pos hn]; rfl
    · simp only [if_neg hn, idx_map, heapSmallerChildFunc_map hf]
      cases heapSmallerChildFunc less h (2 * i + 1) n with
      | ret j =>
        simp only [Outcome.ret_bind]
        cases idx h j with
        | ret x => cases idx h i with
          | ret y =>
            show (if (!less' (f x) (f y)) = true then _ else _) = (fun r : List T × Nat => (r.1.map f, r.2)) <$> (if (!less x y) = true then _ else _)
            rw [hf]
            by_cases hb : (!less x y) = true
            · simp only [if_pos hb]; rfl
            · simp only [if_neg hb, heapSwap_map]
              cases heapSwap h i j with
              | ret z => exact ih z _ _
              | panic => rfl
              | diverge => rfl
          | panic => rfl
          | diverge => rfl
        | panic => rfl
        | diverge => rfl
      | panic => rfl
      | diverge => rfl

theorem heapDownFunc_map (h : List T) (i n : Nat) : heapDownFunc (h.map f) i n less' = (fun r => (r.1.map f, r.2)) <$> heapDownFunc h i n less := by
  simp only [heapDownFunc, heapDownFuncLoop_map hf]
  cases heapDownFuncLoop less (n + 1) h i n <;> rfl

theorem makeHeapFuncLoop_map (n i : Nat) : ∀ h : List T, makeHeapFuncLoop less' n i (h.map f) = List.map f <$> makeHeapFuncLoop less n i h := by
  induction i with
  | zero => intro h; rfl
  | succ i ih =>
    intro h
    simp only [makeHeapFuncLoop, heapDownFunc_map hf]
    cases heapDownFunc h i n less with
    | ret r => exact ih r.1
    | panic => rfl
    | diverge => rfl

theorem makeHeapFunc_map (h : List T) : makeHeapFunc (h.map f) less' = List.map f <$> makeHeapFunc h less := by
  simp only [makeHeapFunc, List.length_map]; exact makeHeapFuncLoop_map hf _ _ h

theorem pushHeapFunc_map (h : List T) (v : T) : pushHeapFunc (h.map f) (f v) less' = List.map f <$> pushHeapFunc h v less := by
  have e : h.map f ++ [f v] = (h ++ [v]).map f := by simp
  simp only [pushHeapFunc, heapUpFunc, e, List.length_map]
  exact heapUpFuncLoop_map hf _ _ _

theorem popHeapFunc_map (h : List T) : popHeapFunc (h.map f) less' = (fun r => (f r.1, r.2.map f)) <$> popHeapFunc h less := by
  simp only [popHeapFunc, List.length_map, heapSwapI_map]
  cases heapSwapI h 0 ((h.length : Int) - 1) with
  | ret a =>
    show (do let r ← heapDownFunc (a.map f) 0 ((h.length : Int) - 1).toNat less'; _) = (fun r : T × List T => (f r.1, r.2.map f)) <$> (do let r ← heapDownFunc a 0 ((h.length : Int) - 1).toNat less; _)
    rw [heapDownFunc_map hf]
    cases heapDownFunc a 0 ((h.length : Int) - 1).toNat less with
    | ret r =>
      show (do let x ← idx (r.1.map f) _; pure (x, (r.1.map f).take _)) = (fun r : T × List T => (f r.1, r.2.map f)) <$> (do let x ← idx r.1 _; pure (x, r.1.take _))
      rw [idx_map]
      cases idx r.1 ((h.length : Int) - 1).toNat with
      | ret x => rw [← List.map_take]; rfl
      | panic => rfl
      | diverge => rfl
    | panic => rfl
    | diverge => rfl
  | panic => rfl
  | diverge => rfl

theorem removeHeapFunc_map (h : List T) (i : Int) : removeHeapFunc (h.map f) i less' = (fun r => (f r.1, r.2.map f)) <$> removeHeapFunc h i less := by
  have hs : ∀ n : Int, removeHeapFuncSift (h.map f) i n less' = List.map f <$> removeHeapFuncSift h i n less := by
    intro n
    simp only [removeHeapFuncSift]
    by_cases hi : n ≠ i
    · simp only [if_pos hi, heapSwapI_map]
      cases heapSwapI h i n with
      | ret a =>
        show (do let r ← heapDownFunc (a.map f) i.toNat n.toNat less'; _) = List.map f <$> (do let r ← heapDownFunc a i.toNat n.toNat less; _)
        rw [heapDownFunc_map hf]
        cases heapDownFunc a i.toNat n.toNat less with
        | ret r =>
          obtain ⟨b, m⟩ := r
          cases m with
          | true => rfl
          | false => exact heapUpFuncLoop_map hf _ b _
        | panic => rfl
        | diverge => rfl
      | panic => rfl
      | diverge => rfl
    · simp only [if_neg hi]; rfl
  simp only [removeHeapFunc, List.length_map, hs]
  cases removeHeapFuncSift h i ((h.length : Int) - 1) less with
  | ret a =>
    show (if (h.length : Int) - 1 < 0 then _ else _) = (fun r : T × List T => (f r.1, r.2.map f)) <$> (if (h.length : Int) - 1 < 0 then _ else _)
    by_cases hn : (h.length : Int) - 1 < 0
    · simp only [if_pos hn]; rfl
    · simp only [if_neg hn, idx_map]
      cases idx a ((h.length : Int) - 1).toNat with
      | ret x =>
        show Outcome.ret (f x, (a.map f).take _) = .ret (f x, (a.take _).map f)
        rw [List.map_take]
      | panic => rfl
      | diverge => rfl
  | panic => rfl
  | diverge => rfl

end

/-! ## Calls that have nothing to do -/

theorem heapDownFunc_heap {less : T → T → Bool} {h : List T} (hh : IsHeap less h) (i : Nat) : heapDownFunc h i h.length less = .ret (h, false) := by
  have : heapDownFuncLoop less (h.length + 1) h i h.length = .ret (h, i) := by
    simp only [heapDownFuncLoop]
    by_cases hn : 2 * i + 1 ≥ h.length
    · simp only [if_pos hn]; rfl
    · simp only [if_neg hn]
      have hchild : ∃ j, heapSmallerChildFunc less h (2 * i + 1) h.length = .ret j ∧ j < h.length ∧ 0 < j ∧ (j - 1) / 2 = i := by
        simp only [heapSmallerChildFunc]
        by_cases h2 : 2 * i + 1 + 1 < h.length
        · rw [if_pos h2, idx_of_lt h2, idx_of_lt (by omega : 2 * i + 1 < h.length)]
          simp only [Outcome.ret_bind, Outcome.pure_eq]
          split
          · exact ⟨_, rfl, h2, by omega, by omega⟩
          · exact ⟨_, rfl, by omega, by omega, by omega⟩
        · rw [if_neg h2]; exact ⟨_, rfl, by omega, by omega, by omega⟩
      obtain ⟨j, e, hj, h0, hp⟩ := hchild
      have := hh j hj h0
      simp only [hp] at this
      rw [e, Outcome.ret_bind, idx_of_lt hj, Outcome.ret_bind, idx_of_lt (by omega : i < h.length), Outcome.ret_bind, this]
      rfl
  rw [heapDownFunc, this]
  simp

theorem makeHeapFunc_heap {less : T → T → Bool} {h : List T} (hh : IsHeap less h) : makeHeapFunc h less = .ret h := by
  have : ∀ i, makeHeapFuncLoop less h.length i h = .ret h := by
    intro i
    induction i with
    | zero => rfl
    | succ i ih => rw [makeHeapFuncLoop, heapDownFunc_heap hh]; exact ih
  exact this _

theorem pushHeapFunc_stays {less : T → T → Bool} {h : List T} {v : T}
    (hv : ∀ p, h[(h.length - 1) / 2]? = some p → less v p = false) : pushHeapFunc h v less = .ret (h ++ [v]) := by
  simp only [pushHeapFunc, heapUpFunc, List.length_append, List.length_singleton, Nat.add_sub_cancel, heapUpFuncLoop]
  by_cases hij : (h.length - 1) / 2 = h.length
  · rw [if_pos hij]; rfl
  · rw [if_neg hij]
    have hlt : (h.length - 1) / 2 < h.length := by omega
    have := hv _ (List.getElem?_eq_getElem hlt)
    rw [idx_of_lt (by simp), idx_of_lt (by simp; omega)]
    simp only [Outcome.ret_bind, List.getElem_append_right (Nat.le_refl _), List.getElem_append_left hlt]
    simp [this]

/-! ## Remove at either end, with a comparison function that reaches everything -/

theorem Mem.write_same (m : Mem T) (a : Nat) : m.write a [m.cell a] = m := by
  cases m with
  | mk cell top =>
    simp only [Mem.write, Mem.mk.injEq, and_true]
    funext k
    by_cases h : a ≤ k
    · rw [if_pos h]
      by_cases h2 : k = a
      · subst h2; simp
      · rw [List.getElem?_eq_none (by simp; omega)]; rfl
    · rw [if_neg h]

theorem heapSwapM_self (h : Sl) (s : HS T τ) (h0 : 0 < h.len) : heapSwapM h 0 0 s = .ok () s := by
  have hg : (0 : Int) ≤ 0 ∧ (0 : Int) < h.len := ⟨by omega, by omega⟩
  simp only [heapSwapM, GoM.bind_def, HS.on, Sl.get, Sl.put, if_pos hg, Mem.write_same]

theorem removeHeapFuncSiftA_first (less : LessA T τ) (h : Sl) (n : Int) (hn : n ≠ 0) :
    removeHeapFuncSiftA h 0 n less = (do heapSwapM h 0 n; let _ ← heapDownFuncA h 0 n.toNat less; pure ()) := by
  rw [removeHeapFuncSiftA, if_pos hn]
  have e : heapUpFuncA h (0 : Int).toNat less = pure () := by
    simp only [heapUpFuncA, heapUpFuncLoopA]; rfl
  rw [e]
  simp only [ite_self]
  rfl

end Stl4go
