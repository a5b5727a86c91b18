import Verif.Proofs.HeapMemApi
import Verif.Proofs.HeapCost
/-!
# The counter of `Model/HeapCost.lean` counts the calls of the comparison function
-/
namespace Stl4go
variable {T α β : Type} {m : Mem T} {h hp : Sl} {l : T → T → Bool}

/-- A comparison function without other effects that counts its calls. -/
def tally (l : T → T → Bool) : LessM T Nat := fun x y t => .ok (l x y) (t + 1)

theorem tally_call (x y : T) (f : Bool → GoM (HS T Nat) α) (mm : Mem T) (t : Nat) :
    (HS.call (tally l x y) >>= f) ⟨mm, t, hp⟩ = f (l x y) ⟨mm, t + 1, hp⟩ := rfl

theorem heapUpFuncLoopM_tally (f : Nat) : ∀ (xs ys : List T) (j t c c' : Nat), xs.length = h.len → j < xs.length →
    heapUpFuncLoopC l f xs j c = .ret (ys, c') →
    ys.length = h.len ∧ heapUpFuncLoopM (tally l) f h j (HS.at m h hp xs (t + c)) = .ok () (HS.at m h hp ys (t + c')) := by
  induction f with
  | zero => intro xs ys j t c c' hl hj e; cases e
  | succ f ih =>
    intro xs ys j t c c' hl hj e
    simp only [heapUpFuncLoopC] at e
    simp only [heapUpFuncLoopM]
    by_cases hj0 : (j - 1) / 2 = j
    · rw [if_pos hj0] at e ⊢
      cases e
      exact ⟨hl, rfl⟩
    · rw [if_neg hj0, idx_of_lt hj, idx_of_lt (by omega : (j - 1) / 2 < xs.length), heapSwap_eq xs _ _ (by omega) hj] at e
      simp only [Outcome.ret_bind] at e
      rw [if_neg hj0, HS.get_at hl _ j hj, HS.get_at hl _ _ (by omega), tally_call]
      cases hb : l xs[j] (xs[(j - 1) / 2]'(by omega)) with
      | false => rw [hb] at e; cases e; exact ⟨hl, rfl⟩
      | true =>
        rw [hb] at e
        simp only [Bool.not_true, if_false, Bool.false_eq_true]
        rw [GoM.bind_ok (heapSwapM_at hl _ ((j - 1) / 2) j (by omega) hj)]
        exact ih _ ys _ t (c + 1) c' (by simpa using hl) (by simp; omega) e

theorem heapSmallerChildFuncM_tally (xs : List T) (j1 n j t c c' : Nat) (hl : xs.length = h.len)
    (hn : n ≤ xs.length) (e : heapSmallerChildFuncC l xs j1 n c = .ret (j, c')) :
    heapSmallerChildFuncM (tally l) h j1 n (HS.at m h hp xs (t + c)) = .ok j (HS.at m h hp xs (t + c')) := by
  unfold heapSmallerChildFuncC at e
  unfold heapSmallerChildFuncM
  by_cases h2 : j1 + 1 < n
  · simp only [if_pos h2] at e
    rw [idx_of_lt (by omega), idx_of_lt (by omega)] at e
    rw [if_pos h2, HS.get_at hl _ (j1 + 1) (by omega), HS.get_at hl _ j1 (by omega), tally_call]
    cases e
    rfl
  · simp only [if_neg h2] at e ⊢
    cases e
    rfl

theorem heapDownFuncLoopM_tally (n : Nat) (f : Nat) : ∀ (xs ys : List T) (i i' t c c' : Nat), xs.length = h.len →
    n ≤ xs.length → heapDownFuncLoopC l f xs i n c = .ret (ys, i', c') →
    ys.length = h.len ∧ heapDownFuncLoopM (tally l) f h i n (HS.at m h hp xs (t + c)) = .ok i' (HS.at m h hp ys (t + c')) := by
  induction f with
  | zero => intro xs ys i i' t c c' hl hn e; cases e
  | succ f ih =>
    intro xs ys i i' t c c' hl hn e
    simp only [heapDownFuncLoopC] at e
    simp only [heapDownFuncLoopM]
    by_cases h1 : 2 * i + 1 ≥ n
    · rw [if_pos h1] at e ⊢
      cases e
      exact ⟨hl, rfl⟩
    · rw [if_neg h1] at e ⊢
      cases hc : heapSmallerChildFuncC l xs (2 * i + 1) n c with
      | panic => rw [hc] at e; cases e
      | diverge => rw [hc] at e; cases e
      | ret p =>
        obtain ⟨j, c1⟩ := p
        have hj : 2 * i + 1 ≤ j ∧ j < n := by
          unfold heapSmallerChildFuncC at hc
          by_cases h2 : 2 * i + 1 + 1 < n
          · simp only [if_pos h2] at hc
            rw [idx_of_lt (by omega), idx_of_lt (by omega)] at hc
            cases hc
            cases l _ _ <;> simp <;> omega
          · simp only [if_neg h2] at hc
            cases hc
            omega
        have e1 := heapSmallerChildFuncM_tally (m := m) (hp := hp) xs _ n j t c c1 hl hn hc
        rw [hc, Outcome.ret_bind] at e
        simp only at e
        rw [idx_of_lt (by omega), idx_of_lt (by omega)] at e
        simp only [Outcome.ret_bind] at e
        rw [heapSwap_eq xs i j (by omega) (by omega)] at e
        rw [GoM.bind_ok e1, HS.get_at hl _ j (by omega), HS.get_at hl _ i (by omega), tally_call]
        cases hb : l (xs[j]'(by omega)) (xs[i]'(by omega)) with
        | false => rw [hb] at e; cases e; exact ⟨hl, rfl⟩
        | true =>
          rw [hb] at e
          simp only [Bool.not_true, if_false, Bool.false_eq_true]
          rw [GoM.bind_ok (heapSwapM_at hl _ i j (by omega) (by omega))]
          exact ih _ ys _ _ t (c1 + 1) c' (by simpa using hl) (by simpa using hn) e

theorem heapDownFuncM_tally (xs ys : List T) (i n t c c' : Nat) (b : Bool) (hl : xs.length = h.len) (hn : n ≤ xs.length)
    (e : heapDownFuncC xs i n l c = .ret (ys, b, c')) :
    ys.length = h.len ∧ heapDownFuncM h i n (tally l) (HS.at m h hp xs (t + c)) = .ok b (HS.at m h hp ys (t + c')) := by
  unfold heapDownFuncC at e
  obtain ⟨⟨zs, i', c1⟩, hd, e⟩ := Outcome.bind_ret e
  cases e
  obtain ⟨a, e1⟩ := heapDownFuncLoopM_tally (m := m) (hp := hp) n _ xs _ i i' t c _ hl hn hd
  exact ⟨a, by rw [heapDownFuncM, GoM.bind_ok e1]; rfl⟩

theorem makeHeapFuncLoopM_tally (n i : Nat) : ∀ (xs ys : List T) (t c c' : Nat), xs.length = h.len → n ≤ xs.length →
    makeHeapFuncLoopC l n i xs c = .ret (ys, c') →
    ys.length = h.len ∧ makeHeapFuncLoopM (tally l) h n i (HS.at m h hp xs (t + c)) = .ok () (HS.at m h hp ys (t + c')) := by
  induction i with
  | zero => intro xs ys t c c' hl hn e; cases e; exact ⟨hl, rfl⟩
  | succ i ih =>
    intro xs ys t c c' hl hn e
    simp only [makeHeapFuncLoopC] at e
    obtain ⟨⟨zs, b, c1⟩, hd, e⟩ := Outcome.bind_ret e
    obtain ⟨a, e1⟩ := heapDownFuncM_tally (m := m) (hp := hp) xs zs i n t c c1 b hl hn hd
    obtain ⟨a2, e2⟩ := ih zs ys t c1 c' a (by omega) e
    exact ⟨a2, by rw [makeHeapFuncLoopM, GoM.bind_ok e1, e2]⟩

theorem popHeapFuncM_tally (s : HS T Nat) (hc : s.heap.len ≤ s.heap.cap) {r : T} {ys : List T} {c : Nat}
    (e : popHeapFuncC (s.heap.read s.mem) l = .ret ((r, ys), c)) :
    s.heap.len = ys.length + 1 ∧
      popHeapFuncM (tally l) s = .ok r ⟨s.mem.write s.heap.off (ys ++ [r]), s.st + c, { s.heap with len := ys.length }⟩ := by
  obtain ⟨m, t, h⟩ := s
  simp only at hc e ⊢
  by_cases h0 : h.len = 0
  · have : h.read m = [] := List.eq_nil_of_length_eq_zero (by simpa using h0)
    rw [this] at e
    cases e
  obtain ⟨n, hn⟩ : ∃ n, h.len = n + 1 := ⟨h.len - 1, by omega⟩
  have hlen : (h.read m).length = n + 1 := by simpa using hn
  have hi : (((h.read m).length : Int) - 1) = (n : Nat) := by omega
  unfold popHeapFuncC at e
  simp only [hi] at e
  have e0 : heapSwapI (h.read m) 0 (n : Int) = .ret (swapped (h.read m) 0 n (by omega) (by omega)) := by
    rw [← heapSwap_eq]; exact heapSwapI_nat (h.read m) 0 n
  simp only [e0, Outcome.ret_bind, Int.toNat_natCast] at e
  obtain ⟨⟨zs, b, c1⟩, e1, e2⟩ := Outcome.bind_ret e
  obtain ⟨r', e3, e4⟩ := Outcome.bind_ret e2
  simp only at e3 e4
  obtain ⟨hz, rfl⟩ := idx_ret e3
  cases e4
  have hs : heapSwapM h (0 : Int) (n : Int) ⟨m, t, h⟩ = .ok () (HS.at m h h (swapped (h.read m) 0 n (by omega) (by omega)) t) := by
    rw [← HS.at_self m h h t]
    exact heapSwapM_at (m := m) (hp := h) (xs := h.read m) (by simp) t 0 n (by omega) (by omega)
  obtain ⟨hlz, e5⟩ := heapDownFuncM_tally (h := h) (m := m) (hp := h) _ zs 0 n t 0 _ b (by simp) (by simp; omega) e1
  have hz2 : zs.take n ++ [zs[n]] = zs := (take_getElem_last (by omega)).symm
  have hzl : (zs.take n).length = n := by simp; omega
  refine ⟨by omega, ?_⟩
  rw [popHeapFuncM_split m t h n hn, GoM.bind_assoc', GoM.bind_ok hs, GoM.bind_ok (show heapDownFuncM h 0 n (tally l) (HS.at m h h _ t) = _ from e5), cutLast_at hlz hc n hn, hz2, hzl]

theorem removeHeapFuncM_tally (s : HS T Nat) (hc : s.heap.len ≤ s.heap.cap) (i : Nat) (hi : i < s.heap.len) {r : T} {ys : List T} {c : Nat}
    (e : removeHeapFuncC (s.heap.read s.mem) (i : Int) l = .ret ((r, ys), c)) :
    s.heap.len = ys.length + 1 ∧
      removeHeapFuncM (i : Int) (tally l) s = .ok r ⟨s.mem.write s.heap.off (ys ++ [r]), s.st + c, { s.heap with len := ys.length }⟩ := by
  obtain ⟨m, t, h⟩ := s
  simp only at hc hi e ⊢
  obtain ⟨n, hn⟩ : ∃ n, h.len = n + 1 := ⟨h.len - 1, by omega⟩
  have hlen : (h.read m).length = n + 1 := by simpa using hn
  have hI : (((h.read m).length : Int) - 1) = (n : Nat) := by omega
  have hI' : ((h.len : Int) - 1) = (n : Nat) := by omega
  unfold removeHeapFuncC at e
  rw [hI] at e
  obtain ⟨⟨zs, c0⟩, e1, e2⟩ := Outcome.bind_ret e
  simp only at e2
  rw [if_neg (by omega)] at e2
  obtain ⟨r', e3, e4⟩ := Outcome.bind_ret e2
  simp only [Int.toNat_natCast] at e3 e4
  obtain ⟨hz, rfl⟩ := idx_ret e3
  cases e4
  have key : zs.length = h.len ∧ removeHeapFuncSiftM h (i : Int) (n : Int) (tally l) ⟨m, t, h⟩ = .ok () (HS.at m h h zs (t + c)) := by
    unfold removeHeapFuncSiftC at e1
    unfold removeHeapFuncSiftM
    by_cases hni : n = i
    · subst hni
      rw [if_neg (by simp)] at e1 ⊢
      cases e1
      exact ⟨by simp, by rw [HS.at_self]; rfl⟩
    · rw [if_pos (by omega)] at e1 ⊢
      have e0 : heapSwapI (h.read m) (i : Int) (n : Int) = .ret (swapped (h.read m) i n (by omega) (by omega)) := by
        rw [← heapSwap_eq, ← heapSwapI_nat]
      have hs : heapSwapM h (i : Int) (n : Int) ⟨m, t, h⟩ = .ok () (HS.at m h h (swapped (h.read m) i n (by omega) (by omega)) t) := by
        rw [← HS.at_self m h h t]
        exact heapSwapM_at (m := m) (hp := h) (xs := h.read m) (by simp) t i n (by omega) (by omega)
      simp only [e0, Outcome.ret_bind, Int.toNat_natCast] at e1
      obtain ⟨⟨ws, b, c1⟩, e5, e6⟩ := Outcome.bind_ret e1
      obtain ⟨hlw, e7⟩ := heapDownFuncM_tally (h := h) (m := m) (hp := h) _ ws i n t 0 c1 b (by simp) (by simp; omega) e5
      rw [GoM.bind_ok hs]
      simp only [Int.toNat_natCast]
      rw [show t = t + 0 from rfl, GoM.bind_ok e7]
      cases b with
      | true => cases e6; exact ⟨hlw, rfl⟩
      | false => exact heapUpFuncLoopM_tally (m := m) (hp := h) _ ws zs i t c1 c hlw (by omega) e6
  obtain ⟨hlz, e5⟩ := key
  have hz2 : zs.take n ++ [zs[n]] = zs := (take_getElem_last (by omega)).symm
  have hzl : (zs.take n).length = n := by simp; omega
  refine ⟨by omega, ?_⟩
  rw [removeHeapFuncM_eq, hI', GoM.bind_ok e5, cutLast_at hlz hc n hn, hz2, hzl]

theorem pushHeapFuncM_tally [GoZero T] (grow : Nat → Nat → Nat) (v : T) (s : HS T Nat) (hw : s.heap.WF s.mem) {ys : List T} {c : Nat}
    (e : pushHeapFuncC (s.heap.read s.mem) v l = .ret (ys, c)) :
    ∃ h' m', s.heap.append grow [v] s.mem = .ok h' m' ∧ ys.length = h'.len ∧
      pushHeapFuncM grow v (tally l) s = .ok () ⟨m'.write h'.off ys, s.st + c, h'⟩ := by
  obtain ⟨m, t, h⟩ := s
  simp only at hw e ⊢
  obtain ⟨h', m', e1, g, hl, hin⟩ := Sl.append_spec grow h [v] m hw
  simp only [List.length_singleton] at hl hin
  unfold pushHeapFuncC at e
  simp only [List.length_append, Sl.read_length, List.length_singleton, Nat.add_sub_cancel] at e
  rw [← g.read] at e
  obtain ⟨a, e2⟩ := heapUpFuncLoopM_tally (h := h') (m := m') (hp := h') _ (h'.read m') ys h.len t 0 c (by simp) (by simp; omega) e
  rw [HS.at_self] at e2
  exact ⟨h', m', e1, a, by rw [pushHeapFuncM_split grow v t e1 hl]; exact e2⟩

end Stl4go
