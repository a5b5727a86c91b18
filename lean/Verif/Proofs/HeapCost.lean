import Verif.Model.HeapCost
import Verif.Proofs.HeapApi
/-! # Erasure and bounds for the instrumented heap functions; 64-bit arithmetic -/
namespace Stl4go
variable {T : Type} {less : T → T → Bool}

/-! ## Erasure -/

/-- Result without the counter. -/
def erase {α : Type} (x : Outcome (α × Nat)) : Outcome α := x >>= fun p => .ret p.1

theorem heapUpFuncLoopC_erase (f : Nat) (h : List T) (j c : Nat) :
    erase (heapUpFuncLoopC less f h j c) = heapUpFuncLoop less f h j := by
  induction f generalizing h j c with
  | zero => rfl
  | succ f ih =>
    simp only [heapUpFuncLoopC, heapUpFuncLoop]
    split
    · rfl
    · cases idx h j with
      | ret x =>
        cases idx h ((j - 1) / 2) with
        | ret y =>
          simp only [Outcome.ret_bind]
          split
          · rfl
          · cases heapSwap h ((j - 1) / 2) j with
            | ret s => simp only [Outcome.ret_bind]; exact ih _ _ _
            | panic => rfl
            | diverge => rfl
        | panic => rfl
        | diverge => rfl
      | panic => rfl
      | diverge => rfl

theorem heapSmallerChildFuncC_erase (h : List T) (j n c : Nat) :
    heapSmallerChildFunc less h j n = (heapSmallerChildFuncC less h j n c >>= fun p => .ret p.1) := by
  simp only [heapSmallerChildFuncC, heapSmallerChildFunc]
  split
  · cases idx h (j + 1) with
    | ret x => cases idx h j <;> rfl
    | panic => rfl
    | diverge => rfl
  · rfl

theorem heapDownFuncLoopC_erase (f : Nat) (h : List T) (i n c : Nat) :
    (heapDownFuncLoopC less f h i n c >>= fun p => .ret (p.1, p.2.1)) = heapDownFuncLoop less f h i n := by
  induction f generalizing h i c with
  | zero => rfl
  | succ f ih =>
    simp only [heapDownFuncLoopC, heapDownFuncLoop]
    split
    · rfl
    · rw [heapSmallerChildFuncC_erase h (2 * i + 1) n c]
      cases heapSmallerChildFuncC less h (2 * i + 1) n c with
      | ret p =>
        obtain ⟨j, c'⟩ := p
        simp only [Outcome.ret_bind]
        cases idx h j with
        | ret x =>
          cases idx h i with
          | ret y =>
            simp only [Outcome.ret_bind]
            split
            · rfl
            · cases heapSwap h i j with
              | ret s => simp only [Outcome.ret_bind]; exact ih _ _ _
              | panic => rfl
              | diverge => rfl
          | panic => rfl
          | diverge => rfl
        | panic => rfl
        | diverge => rfl
      | panic => rfl
      | diverge => rfl

theorem heapDownFuncC_erase (h : List T) (i n c : Nat) :
    (heapDownFuncC h i n less c >>= fun p => .ret (p.1, p.2.1)) = heapDownFunc h i n less := by
  simp only [heapDownFuncC, heapDownFunc, ← heapDownFuncLoopC_erase _ _ _ _ c, bind_assoc]
  rfl

theorem makeHeapFuncLoopC_erase (n i : Nat) (h : List T) (c : Nat) :
    erase (makeHeapFuncLoopC less n i h c) = makeHeapFuncLoop less n i h := by
  induction i generalizing h c with
  | zero => rfl
  | succ i ih =>
    simp only [makeHeapFuncLoopC, makeHeapFuncLoop, ← heapDownFuncC_erase _ _ _ c, bind_assoc, erase]
    congr 1
    funext p
    exact ih _ _

theorem pushHeapFuncC_erase (h : List T) (v : T) : erase (pushHeapFuncC h v less) = pushHeapFunc h v less :=
  heapUpFuncLoopC_erase _ _ _ _

theorem popHeapFuncC_erase (h : List T) : erase (popHeapFuncC h less) = popHeapFunc h less := by
  simp only [popHeapFuncC, popHeapFunc, ← heapDownFuncC_erase _ _ _ 0, bind_assoc, erase]
  rfl

theorem removeHeapFuncSiftC_erase (h : List T) (i n : Int) :
    erase (removeHeapFuncSiftC h i n less) = removeHeapFuncSift h i n less := by
  simp only [removeHeapFuncSiftC, removeHeapFuncSift]
  split
  · simp only [← heapDownFuncC_erase _ _ _ 0, bind_assoc, erase]
    congr 1; funext s
    congr 1; funext p
    simp only [Outcome.ret_bind]
    split
    · exact heapUpFuncLoopC_erase _ _ _ _
    · rfl
  · rfl

theorem removeHeapFuncC_erase (h : List T) (i : Int) : erase (removeHeapFuncC h i less) = removeHeapFunc h i less := by
  simp only [removeHeapFuncC, removeHeapFunc, ← removeHeapFuncSiftC_erase, bind_assoc, erase]
  congr 1; funext p
  simp only [Outcome.ret_bind]
  split
  · rfl
  · simp only [bind_assoc]; rfl

/-! ## Bounds -/

theorem log2_half (n : Nat) (h : 2 ≤ n) : Nat.log2 n = Nat.log2 (n / 2) + 1 := by
  rw [Nat.log2_def, if_pos h]

theorem log2_mono {a b : Nat} (h : a ≤ b) : Nat.log2 a ≤ Nat.log2 b := by
  by_cases ha : a = 0
  · subst ha; simp
  · rw [Nat.le_log2 (by omega)]
    exact Nat.le_trans (Nat.log2_self_le ha) h

theorem heapUpFuncLoopC_bound (f : Nat) (h : List T) (j c : Nat) (h' : List T) (c' : Nat)
    (he : heapUpFuncLoopC less f h j c = .ret (h', c')) : c' ≤ c + Nat.log2 (j + 1) := by
  induction f generalizing h j c with
  | zero => cases he
  | succ f ih =>
    simp only [heapUpFuncLoopC] at he
    split at he
    · cases he; omega
    · have hlog : Nat.log2 (j + 1) = Nat.log2 ((j + 1) / 2) + 1 := log2_half _ (by omega)
      have hpar : (j - 1) / 2 + 1 = (j + 1) / 2 := by omega
      cases hx : idx h j with
      | ret x =>
        rw [hx] at he
        cases hy : idx h ((j - 1) / 2) with
        | ret y =>
          rw [hy] at he
          simp only [Outcome.ret_bind] at he
          split at he
          · cases he; omega
          · cases hs : heapSwap h ((j - 1) / 2) j with
            | ret s =>
              rw [hs] at he
              have := ih _ _ _ he
              rw [hpar] at this
              omega
            | panic => rw [hs] at he; cases he
            | diverge => rw [hs] at he; cases he
        | panic => rw [hy] at he; cases he
        | diverge => rw [hy] at he; cases he
      | panic => rw [hx] at he; cases he
      | diverge => rw [hx] at he; cases he

theorem heapSmallerChildFuncC_bound (h : List T) (i n c j c' : Nat)
    (he : heapSmallerChildFuncC less h (2 * i + 1) n c = .ret (j, c')) :
    c' ≤ c + 1 ∧ 2 * i + 1 ≤ j := by
  simp only [heapSmallerChildFuncC] at he
  split at he
  · cases hx : idx h (2 * i + 1 + 1) with
    | ret x =>
      rw [hx] at he
      cases hy : idx h (2 * i + 1) with
      | ret y =>
        rw [hy] at he
        simp only [Outcome.ret_bind, Outcome.pure_eq, Outcome.ret.injEq, Prod.mk.injEq] at he
        obtain ⟨rfl, rfl⟩ := he
        split <;> omega
      | panic => rw [hy] at he; cases he
      | diverge => rw [hy] at he; cases he
    | panic => rw [hx] at he; cases he
    | diverge => rw [hx] at he; cases he
  · cases he; omega

/-- A sift-down from `i` in `n` elements costs at most two comparisons per level below `i`. -/
theorem heapDownFuncLoopC_bound (f : Nat) (h : List T) (i n c : Nat) (h' : List T) (i' c' : Nat)
    (he : heapDownFuncLoopC less f h i n c = .ret (h', i', c')) : c' ≤ c + 2 * Nat.log2 (n / (i + 1)) := by
  induction f generalizing h i c with
  | zero => cases he
  | succ f ih =>
    simp only [heapDownFuncLoopC] at he
    split at he
    · cases he; omega
    · rename_i hlt
      have h2 : 2 ≤ n / (i + 1) := by
        rw [Nat.le_div_iff_mul_le (by omega)]; omega
      have hlog := log2_half _ h2
      have hdd : n / (i + 1) / 2 = n / (2 * i + 2) := by
        rw [Nat.div_div_eq_div_mul]; congr 1; omega
      cases hp : heapSmallerChildFuncC less h (2 * i + 1) n c with
      | ret p =>
        obtain ⟨j, c1⟩ := p
        obtain ⟨hc1, hj⟩ := heapSmallerChildFuncC_bound h i n c j c1 hp
        rw [hp] at he
        simp only [Outcome.ret_bind] at he
        cases hx : idx h j with
        | ret x =>
          rw [hx] at he
          cases hy : idx h i with
          | ret y =>
            rw [hy] at he
            simp only [Outcome.ret_bind] at he
            split at he
            · cases he; omega
            · cases hs : heapSwap h i j with
              | ret s =>
                rw [hs] at he
                have := ih _ _ _ he
                have hm : Nat.log2 (n / (j + 1)) ≤ Nat.log2 (n / (2 * i + 2)) :=
                  log2_mono (Nat.div_le_div_left (by omega) (by omega))
                rw [hdd] at hlog
                omega
              | panic => rw [hs] at he; cases he
              | diverge => rw [hs] at he; cases he
          | panic => rw [hy] at he; cases he
          | diverge => rw [hy] at he; cases he
        | panic => rw [hx] at he; cases he
        | diverge => rw [hx] at he; cases he
      | panic => rw [hp] at he; cases he
      | diverge => rw [hp] at he; cases he

theorem heapDownFuncC_bound (h : List T) (i n c : Nat) (h' : List T) (m : Bool) (c' : Nat)
    (he : heapDownFuncC h i n less c = .ret (h', m, c')) : c' ≤ c + 2 * Nat.log2 (n / (i + 1)) := by
  simp only [heapDownFuncC] at he
  cases hp : heapDownFuncLoopC less (n + 1) h i n c with
  | ret p =>
    obtain ⟨a, b, d⟩ := p
    rw [hp] at he
    simp only [Outcome.ret_bind, Outcome.pure_eq, Outcome.ret.injEq, Prod.mk.injEq] at he
    obtain ⟨_, _, rfl⟩ := he
    exact heapDownFuncLoopC_bound _ _ _ _ _ _ _ _ hp
  | panic => rw [hp] at he; cases he
  | diverge => rw [hp] at he; cases he

/-- Total height of the nodes `0..m-1`. -/
def heightSum (n : Nat) : Nat → Nat
  | 0 => 0
  | m + 1 => heightSum n m + Nat.log2 (n / (m + 1))

theorem heightSum_half (n m : Nat) (hm : m ≤ n / 2) : heightSum n m = m + heightSum (n / 2) m := by
  induction m with
  | zero => simp [heightSum]
  | succ m ih =>
    have h2 : 2 ≤ n / (m + 1) := by
      rw [Nat.le_div_iff_mul_le (by omega)]; omega
    have hlog := log2_half _ h2
    have hdd : n / (m + 1) / 2 = n / 2 / (m + 1) := by
      rw [Nat.div_div_eq_div_mul, Nat.div_div_eq_div_mul, Nat.mul_comm]
    simp only [heightSum, ih (by omega), hlog, hdd]
    omega

theorem heightSum_tail (n m : Nat) (hm : n / 2 ≤ m) : heightSum n m = heightSum n (n / 2) := by
  induction m with
  | zero => rw [show n / 2 = 0 by omega]
  | succ m ih =>
    by_cases h : n / 2 = m + 1
    · rw [h]
    · have : n / (m + 1) < 2 := by
        rw [Nat.div_lt_iff_lt_mul (by omega)]; omega
      have hz : Nat.log2 (n / (m + 1)) = 0 := by
        rw [Nat.log2_def, if_neg (by omega)]
      simp only [heightSum, hz, ih (by omega)]; rfl

theorem heightSum_le (n m : Nat) : heightSum n m ≤ n := by
  induction n using Nat.strongRecOn generalizing m with
  | _ n ih =>
    by_cases hn : n = 0
    · subst hn
      have : ∀ m, heightSum 0 m = 0 := by
        intro m
        induction m with
        | zero => rfl
        | succ m ih => simp [heightSum, ih]
      rw [this]; omega
    · by_cases hm : m ≤ n / 2
      · rw [heightSum_half n m hm]
        have := ih (n / 2) (by omega) m
        omega
      · rw [heightSum_tail n m (by omega), heightSum_half n _ (Nat.le_refl _)]
        have := ih (n / 2) (by omega) (n / 2)
        omega

theorem makeHeapFuncLoopC_bound (n i : Nat) (h : List T) (c : Nat) (h' : List T) (c' : Nat)
    (he : makeHeapFuncLoopC less n i h c = .ret (h', c')) : c' ≤ c + 2 * heightSum n i := by
  induction i generalizing h c with
  | zero => cases he; omega
  | succ i ih =>
    simp only [makeHeapFuncLoopC] at he
    cases hp : heapDownFuncC h i n less c with
    | ret p =>
      obtain ⟨a, b, d⟩ := p
      rw [hp] at he
      have h1 := ih _ _ he
      have h2 := heapDownFuncC_bound _ _ _ _ _ _ _ hp
      simp only [heightSum]
      simp only at h1
      omega
    | panic => rw [hp] at he; cases he
    | diverge => rw [hp] at he; cases he

theorem ret_of_erase {α : Type} {x : Outcome (α × Nat)} {a : α} (h : erase x = .ret a) : ∃ c, x = .ret (a, c) := by
  cases x with
  | ret p => obtain ⟨b, c⟩ := p; cases h; exact ⟨c, rfl⟩
  | panic => cases h
  | diverge => cases h

/-! ## 64-bit index arithmetic -/

theorem wrap64_of_range {x : Int} (h1 : -2 ^ 63 ≤ x) (h2 : x < 2 ^ 63) : wrap64 x = x := by
  unfold wrap64; omega

theorem heapSmallerChildFuncW_eq (h : List T) (j1 n : Nat) (hj : j1 < n) (hn : n < 2 ^ 63) :
    heapSmallerChildFuncW less h j1 n = (heapSmallerChildFunc less h j1 n >>= fun (j : Nat) => .ret (j : Int)) := by
  have e : wrap64 ((j1 : Int) + 1) = ((j1 + 1 : Nat) : Int) := by
    rw [wrap64_of_range] <;> omega
  simp only [heapSmallerChildFuncW, heapSmallerChildFunc, e]
  by_cases h2 : j1 + 1 < n
  · rw [if_pos (by omega), if_pos h2, if_neg (by omega)]
    simp only [Int.toNat_natCast]
    cases idx h (j1 + 1) with
    | ret x =>
      cases idx h j1 with
      | ret y => simp only [Outcome.ret_bind, Outcome.pure_eq]; split <;> rfl
      | panic => rfl
      | diverge => rfl
    | panic => rfl
    | diverge => rfl
  · rw [if_neg (by omega), if_neg h2]; rfl

theorem heapDownFuncLoopW_eq (f : Nat) (h : List T) (i n : Nat) (hi : i < 2 ^ 63) (hn : n < 2 ^ 63) :
    heapDownFuncLoopW less f h i n = (heapDownFuncLoop less f h i n >>= fun p => .ret (p.1, (p.2 : Int))) := by
  induction f generalizing h i with
  | zero => rfl
  | succ f ih =>
    by_cases h1 : 2 * i + 1 < n
    · have e : wrap64 (wrap64 (2 * (i : Int)) + 1) = ((2 * i + 1 : Nat) : Int) := by
        unfold wrap64; omega
      simp only [heapDownFuncLoopW, heapDownFuncLoop, e]
      rw [if_neg (by omega), if_neg (by omega), heapSmallerChildFuncW_eq h _ n h1 hn]
      cases hs : heapSmallerChildFunc less h (2 * i + 1) n with
      | ret j =>
        simp only [Outcome.ret_bind]
        rw [if_neg (by omega)]
        simp only [Int.toNat_natCast, heapSwapI_nat]
        have hj : j < n := by
          simp only [heapSmallerChildFunc] at hs
          split at hs
          · cases hx : idx h (2 * i + 1 + 1) with
            | ret x =>
              rw [hx] at hs
              cases hy : idx h (2 * i + 1) with
              | ret y =>
                rw [hy] at hs
                simp only [Outcome.ret_bind, Outcome.pure_eq, Outcome.ret.injEq] at hs
                subst hs
                split <;> omega
              | panic => rw [hy] at hs; cases hs
              | diverge => rw [hy] at hs; cases hs
            | panic => rw [hx] at hs; cases hs
            | diverge => rw [hx] at hs; cases hs
          · cases hs; omega
        cases idx h j with
        | ret x =>
          cases idx h i with
          | ret y =>
            simp only [Outcome.ret_bind]
            split
            · rfl
            · cases heapSwap h i j with
              | ret s => simp only [Outcome.ret_bind]; exact ih _ _ (by omega)
              | panic => rfl
              | diverge => rfl
          | panic => rfl
          | diverge => rfl
        | panic => rfl
        | diverge => rfl
      | panic => rfl
      | diverge => rfl
    · have e : wrap64 (wrap64 (2 * (i : Int)) + 1) ≥ (n : Int) ∨ wrap64 (wrap64 (2 * (i : Int)) + 1) < 0 := by
        unfold wrap64; omega
      simp only [heapDownFuncLoopW]
      rw [heapDownFuncLoop_leaf f h i n h1, if_pos e]
      rfl

end Stl4go
