import Verif.Spec.NilFunc
import Verif.Proofs.SkipListMHist
import Verif.Proofs.HeapAny
import Verif.Proofs.HeapMemRun
/-! # Nil functions: proofs -/
namespace Stl4go
variable {σ α β K V T τ ρ : Type}

theorem nilCall_bind (f : α → GoM σ β) (s : σ) : ((nilCall : GoM σ α) >>= f) s = .panic s := rfl

/-! ## Slices -/

section
variable (a : Sl) (s : CS T ρ)

theorem Sl.get_first (h : 0 < a.len) (m : Mem T) : a.get ((0 : Nat) : Int) m = .ok (m.cell (a.off + 0)) m := by
  simp only [Sl.get]
  rw [if_pos ⟨by omega, by omega⟩]
  rfl

theorem Sl.addr_first (h : 0 < a.len) (m : Mem T) : a.addr ((0 : Nat) : Int) m = .ok (a.off + 0) m := by
  simp only [Sl.addr]
  rw [if_pos ⟨by omega, by omega⟩]
  rfl

theorem findIf_nil : UpTo 0 a.len s (-1, false) (findIfC a (fun _ => nilCall) s) := by
  constructor
  · intro h; simp only [findIfC, Nat.le_zero.1 h]; rfl
  · intro h
    obtain ⟨n, hn⟩ := Nat.exists_eq_succ_of_ne_zero (Nat.ne_of_gt h)
    simp only [findIfC, hn, findIfLoopC, GoM.bind_def, CS.on, Sl.get_first a h, nilCall]

theorem allOf_nil : UpTo 0 a.len s true (allOfC a (fun _ => nilCall) s) := by
  constructor
  · intro h; simp only [allOfC, Nat.le_zero.1 h]; rfl
  · intro h
    obtain ⟨n, hn⟩ := Nat.exists_eq_succ_of_ne_zero (Nat.ne_of_gt h)
    simp only [allOfC, hn, allOfLoopC, GoM.bind_def, CS.on, Sl.get_first a h, nilCall]

theorem anyOf_nil : UpTo 0 a.len s false (anyOfC a (fun _ => nilCall) s) := by
  constructor
  · intro h; simp only [anyOfC, Nat.le_zero.1 h]; rfl
  · intro h
    obtain ⟨n, hn⟩ := Nat.exists_eq_succ_of_ne_zero (Nat.ne_of_gt h)
    simp only [anyOfC, hn, anyOfLoopC, GoM.bind_def, CS.on, Sl.get_first a h, nilCall]

theorem noneOf_nil : UpTo 0 a.len s true (noneOfC a (fun _ => nilCall) s) := by
  obtain ⟨h1, h2⟩ := anyOf_nil a s
  constructor
  · intro h; simp only [noneOfC, GoM.bind_def, h1 h]; rfl
  · intro h; simp only [noneOfC, GoM.bind_def, h2 h]

theorem countIf_nil : UpTo 0 a.len s 0 (countIfC a (fun _ => nilCall) s) := by
  constructor
  · intro h; simp only [countIfC, Nat.le_zero.1 h]; rfl
  · intro h
    obtain ⟨n, hn⟩ := Nat.exists_eq_succ_of_ne_zero (Nat.ne_of_gt h)
    simp only [countIfC, hn, countIfLoopC, GoM.bind_def, CS.on, Sl.get_first a h, nilCall]

theorem transform_nil : UpTo 0 a.len s () (transformC a (fun _ => nilCall) s) := by
  constructor
  · intro h; simp only [transformC, Nat.le_zero.1 h]; rfl
  · intro h
    obtain ⟨n, hn⟩ := Nat.exists_eq_succ_of_ne_zero (Nat.ne_of_gt h)
    simp only [transformC, hn, transformLoopC, GoM.bind_def, CS.on, Sl.get_first a h, nilCall]

theorem generate_nil : UpTo 0 a.len s () (generateC a nilCall s) := by
  constructor
  · intro h; simp only [generateC, Nat.le_zero.1 h]; rfl
  · intro h
    obtain ⟨n, hn⟩ := Nat.exists_eq_succ_of_ne_zero (Nat.ne_of_gt h)
    simp only [generateC, hn, generateLoopC, GoM.bind_def, nilCall]

theorem replaceIf_nil (new : T) : UpTo 0 a.len s () (replaceIfC a (fun _ => nilCall) new s) := by
  constructor
  · intro h; simp only [replaceIfC, Nat.le_zero.1 h]; rfl
  · intro h
    obtain ⟨n, hn⟩ := Nat.exists_eq_succ_of_ne_zero (Nat.ne_of_gt h)
    simp only [replaceIfC, hn, replaceIfLoopC, GoM.bind_def, CS.on, Sl.get_first a h, nilCall]

theorem removeIf_nil : UpTo 0 a.len s a (removeIfC a (fun _ => nilCall) s) := by
  constructor
  · intro h
    obtain ⟨o, l, c⟩ := a
    have h := Nat.le_zero.1 h
    subst h
    simp only [removeIfC, removeIfLoopC, GoM.pure_bind']
    simp [CS.on, Sl.slice]
  · intro h
    obtain ⟨n, hn⟩ := Nat.exists_eq_succ_of_ne_zero (Nat.ne_of_gt h)
    simp only [removeIfC, hn, removeIfLoopC, GoM.bind_def, CS.on, Sl.get_first a h, nilCall]

theorem forEach_nil : UpTo 0 a.len s () (Vec.forEachC a (fun _ => nilCall) s) := by
  constructor
  · intro h; simp only [Vec.forEachC, Nat.le_zero.1 h]; rfl
  · intro h
    obtain ⟨n, hn⟩ := Nat.exists_eq_succ_of_ne_zero (Nat.ne_of_gt h)
    simp only [Vec.forEachC, hn, Vec.forEachLoopC, GoM.bind_def, CS.on, Sl.get_first a h, nilCall]

theorem forEachIf_nil : UpTo 0 a.len s () (Vec.forEachIfC a (fun _ => nilCall) s) := by
  constructor
  · intro h; simp only [Vec.forEachIfC, Nat.le_zero.1 h]; rfl
  · intro h
    obtain ⟨n, hn⟩ := Nat.exists_eq_succ_of_ne_zero (Nat.ne_of_gt h)
    simp only [Vec.forEachIfC, hn, Vec.forEachIfLoopC, GoM.bind_def, CS.on, Sl.get_first a h, nilCall]

theorem forEachMutable_nil : UpTo 0 a.len s () (Vec.forEachMutableC a (fun _ => nilCall) s) := by
  constructor
  · intro h; simp only [Vec.forEachMutableC, Nat.le_zero.1 h]; rfl
  · intro h
    obtain ⟨n, hn⟩ := Nat.exists_eq_succ_of_ne_zero (Nat.ne_of_gt h)
    simp only [Vec.forEachMutableC, hn, Vec.forEachMutableLoopC, GoM.bind_def, CS.on, Sl.addr_first a h, nilCall]

theorem forEachMutableIf_nil : UpTo 0 a.len s () (Vec.forEachMutableIfC a (fun _ => nilCall) s) := by
  constructor
  · intro h; simp only [Vec.forEachMutableIfC, Nat.le_zero.1 h]; rfl
  · intro h
    obtain ⟨n, hn⟩ := Nat.exists_eq_succ_of_ne_zero (Nat.ne_of_gt h)
    simp only [Vec.forEachMutableIfC, hn, Vec.forEachMutableIfLoopC, GoM.bind_def, CS.on, Sl.addr_first a h, nilCall]

theorem Sl.get_half (h : 0 < a.len) (m : Mem T) : a.get ((0 + a.len / 2 : Nat) : Int) m = .ok (m.cell (a.off + (0 + a.len / 2))) m := by
  simp only [Sl.get]
  rw [if_pos ⟨by omega, by omega⟩]
  rfl

theorem lowerBound_nil (v : T) : UpTo 0 a.len s 0 (lowerBoundFuncE a v (fun _ _ => nilCall) s) := by
  constructor
  · intro h; simp only [lowerBoundFuncE, Nat.le_zero.1 h]; rfl
  · intro h
    simp only [lowerBoundFuncE, lowerBoundFuncLoopE]
    rw [if_pos h]
    simp only [GoM.bind_def, CS.on, Sl.get_half a h, nilCall]

theorem upperBound_nil (v : T) : UpTo 0 a.len s 0 (upperBoundFuncE a v (fun _ _ => nilCall) s) := by
  constructor
  · intro h; simp only [upperBoundFuncE, Nat.le_zero.1 h]; rfl
  · intro h
    simp only [upperBoundFuncE, upperBoundFuncLoopE]
    rw [if_pos h]
    simp only [GoM.bind_def, CS.on, Sl.get_half a h, nilCall]

theorem binarySearch_nil (v : T) : UpTo 0 a.len s (-1, false) (binarySearchFuncE a v (fun _ _ => nilCall) s) := by
  obtain ⟨h1, h2⟩ := lowerBound_nil a s v
  constructor
  · intro h
    simp only [binarySearchFuncE, GoM.bind_def, h1 h]
    rw [if_neg (by omega)]
    rfl
  · intro h; simp only [binarySearchFuncE, GoM.bind_def, h2 h]

end

/-! ## Heaps -/

section
variable {m : Mem T} {h hp : Sl}

theorem heapUp_nil {xs : List T} (hl : xs.length = h.len) (j : Nat) (hj : j < xs.length) (t : τ) :
    heapUpFuncM h j (fun _ _ => nilCall) (HS.at m h hp xs t) = if j = 0 then .ok () (HS.at m h hp xs t) else .panic (HS.at m h hp xs t) := by
  simp only [heapUpFuncM, heapUpFuncLoopM]
  by_cases h0 : j = 0
  · rw [if_pos (by omega), if_pos h0]; rfl
  · rw [if_neg (by omega), if_neg h0, HS.get_at hl t j hj, HS.get_at hl t ((j - 1) / 2) (by omega)]
    rfl

theorem heapDown_nil {xs : List T} (hl : xs.length = h.len) (i n : Nat) (hn : n ≤ xs.length) (t : τ) :
    heapDownFuncM h i n (fun _ _ => nilCall) (HS.at m h hp xs t) =
      if n ≤ 2 * i + 1 then .ok false (HS.at m h hp xs t) else .panic (HS.at m h hp xs t) := by
  simp only [heapDownFuncM, heapDownFuncLoopM]
  by_cases h0 : n ≤ 2 * i + 1
  · rw [if_pos h0, if_pos h0]
    simp [GoM.pure_bind']
  · rw [if_neg h0, if_neg h0]
    simp only [heapSmallerChildFuncM]
    by_cases h1 : 2 * i + 1 + 1 < n
    · rw [if_pos h1, GoM.bind_def, GoM.bind_def, HS.get_at hl t (2 * i + 1 + 1) (by omega), HS.get_at hl t (2 * i + 1) (by omega)]
      rfl
    · rw [if_neg h1, GoM.pure_bind', GoM.bind_def, HS.get_at hl t (2 * i + 1) (by omega), HS.get_at hl t i (by omega)]
      rfl

theorem make_nil (s : HS T τ) : UpTo 1 h.len s () (makeHeapFuncM h (fun _ _ => nilCall) s) := by
  constructor
  · intro hn
    rw [makeHeapFuncM, show h.len / 2 = 0 by omega]
    rfl
  · intro hn
    obtain ⟨k, hk⟩ := Nat.exists_eq_succ_of_ne_zero (show h.len / 2 ≠ 0 by omega)
    obtain ⟨mm, t, hp⟩ := s
    have := heapDown_nil (m := mm) (hp := hp) (xs := h.read mm) (h := h) (by simp) k h.len (by simp) t
    rw [if_neg (by omega)] at this
    rw [HS.at, Sl.write_read] at this
    simp only [makeHeapFuncM, hk, makeHeapFuncLoopM, GoM.bind_def, this]

theorem isHeap_nil (s : HS T τ) : UpTo 1 h.len s true (isHeapFuncA h (fun _ _ => nilCall) s) := by
  constructor
  · intro hn
    rw [isHeapFuncA, show h.len - 1 = 0 by omega]
    rfl
  · intro hn
    obtain ⟨k, hk⟩ := Nat.exists_eq_succ_of_ne_zero (show h.len - 1 ≠ 0 by omega)
    have g0 := Sl.get_first h (show 0 < h.len by omega) s.mem
    have g1 := Sl.get_ok h s.mem 1 hn
    simp only [isHeapFuncA, hk, isHeapFuncLoopA, GoM.bind_def, HS.on, g0, g1, nilCall]

theorem push_nil [GoZero T] (grow : Nat → Nat → Nat) (v : T) (s : HS T τ) (hw : s.heap.WF s.mem) :
    ∃ m1 h1, AddedLast s.mem s.heap v m1 h1 ∧ h1.len = s.heap.len + 1 ∧
      pushHeapFuncM grow v (fun _ _ => nilCall) s = if s.heap.len = 0 then .ok () ⟨m1, s.st, h1⟩ else .panic ⟨m1, s.st, h1⟩ := by
  obtain ⟨m1, h1, e, ha, hl⟩ := Sl.append_added grow s.heap v s.mem hw
  refine ⟨m1, h1, ha, hl, ?_⟩
  have : pushHeapFuncM grow v (fun _ _ => nilCall) s = heapUpFuncM h1 (h1.len - 1) (fun _ _ => nilCall) ⟨m1, s.st, h1⟩ := by
    simp only [pushHeapFuncM, GoM.bind_def, HS.recv, HS.on, e, HS.assign]
  rw [this]
  have h2 := heapUp_nil (m := m1) (hp := h1) (xs := h1.read m1) (h := h1) (by simp) (h1.len - 1) (by simp; omega) s.st
  rw [HS.at, Sl.write_read] at h2
  rw [h2, hl]
  rfl

theorem popCut (h : Sl) (n : Nat) (hn : n < h.len) (hc : h.len ≤ h.cap) (s : HS T τ) :
    (do
      let h' ← HS.on (h.slice 0 (n : Int))
      HS.assign h'
      HS.on (h.get (n : Int)) : GoM (HS T τ) T) s = .ok (s.mem.cell (h.off + n)) { s with heap := { h with len := n } } := by
  have := cutTo_eq h n hn hc (pure () : GoM (HS T τ) Unit) s
  exact this

theorem pop_nil_empty (s : HS T τ) (h0 : s.heap.len = 0) : popHeapFuncM (fun _ _ => nilCall) s = .panic s := by
  simp only [popHeapFuncM, GoM.bind_def, HS.recv]
  rw [heapSwapM_panic (.inl (by omega))]

theorem pop_nil (s : HS T τ) (hw : s.heap.WF s.mem) (n : Nat) (hn : (s.heap.read s.mem).length = n + 1) :
    popHeapFuncM (fun _ _ => nilCall) s =
      let ys := swapped (s.heap.read s.mem) 0 n (by omega) (by omega)
      if n ≤ 1 then .ok ((s.heap.read s.mem)[0]'(by omega)) ⟨s.mem.write s.heap.off ys, s.st, { s.heap with len := n }⟩
      else .panic ⟨s.mem.write s.heap.off ys, s.st, s.heap⟩ := by
  obtain ⟨m, t, h⟩ := s
  dsimp only at hn hw ⊢
  have hl : h.len = n + 1 := by simpa using hn
  have e1 : (⟨m, t, h⟩ : HS T τ) = HS.at m h h (h.read m) t := by rw [HS.at, Sl.write_read]
  have hsw := heapSwapM_at (m := m) (h := h) (hp := h) (xs := h.read m) (by simp) t 0 n (by omega) (by omega)
  have hlast : (swapped (h.read m) 0 n (by omega) (by omega))[n]? = some ((h.read m)[0]'(by omega)) := by
    rw [swapped, List.getElem?_set_self (by simp; omega)]
  generalize hys : swapped (h.read m) 0 n (by omega) (by omega) = ys at hsw hlast ⊢
  have hyl : ys.length = n + 1 := by rw [← hys]; simp [swapped, hl]
  have hdn := heapDown_nil (m := m) (h := h) (hp := h) (xs := ys) (by omega) 0 n (by omega) t
  have hz : ((h.len : Int) - 1) = (n : Int) := by omega
  have hz' : ((n : Int)).toNat = n := by omega
  have hrun : popHeapFuncM (fun _ _ => nilCall) (⟨m, t, h⟩ : HS T τ) = (heapDownFuncM h 0 n (fun _ _ => nilCall) >>= fun _ => (do
      let h' ← HS.on (h.slice 0 (n : Int))
      HS.assign h'
      HS.on (h.get (n : Int)) : GoM (HS T τ) T)) (HS.at m h h ys t) := by
    rw [e1]
    simp only [popHeapFuncM, GoM.bind_def (x := HS.recv), HS.recv]
    rw [hz, hz', GoM.bind_def (x := heapSwapM h 0 (n : Int)), show heapSwapM h (0 : Int) (n : Int) (HS.at m h h (h.read m) t) = _ from hsw]
  rw [hrun, GoM.bind_def, hdn]
  by_cases h1 : n ≤ 1
  · rw [if_pos (by omega), if_pos h1]
    dsimp only
    rw [popCut h n (by omega) hw.1]
    have := Mem.write_in m h.off ys n (by omega)
    rw [List.getElem?_eq_getElem (by omega)] at hlast
    injection hlast with hlast
    rw [HS.at] at *
    simp only [this, hlast]
  · rw [if_neg (by omega), if_neg h1]

theorem remove_nil_out (i : Int) (s : HS T τ) (hi : ¬ (0 ≤ i ∧ i < s.heap.len)) : removeHeapFuncM i (fun _ _ => nilCall) s = .panic s := by
  obtain ⟨m, t, h⟩ := s
  dsimp only at hi
  simp only [removeHeapFuncM, GoM.bind_def (x := HS.recv), HS.recv]
  by_cases hne : (h.len : Int) - 1 ≠ i
  · rw [removeHeapFuncSiftM, if_pos hne, GoM.bind_def, GoM.bind_def, heapSwapM_panic (.inl hi)]
  · have hz : ¬ (0 ≤ (0 : Int) ∧ (0 : Int) ≤ (h.len : Int) - 1 ∧ (h.len : Int) - 1 ≤ h.cap) := by omega
    rw [removeHeapFuncSiftM, if_neg hne, GoM.pure_bind', GoM.bind_def]
    simp only [HS.on, Sl.slice, if_neg hz]

theorem remove_nil (i : Nat) (s : HS T τ) (hw : s.heap.WF s.mem) (n : Nat) (hn : (s.heap.read s.mem).length = n + 1) (hi : i < (s.heap.read s.mem).length) :
    removeHeapFuncM (i : Int) (fun _ _ => nilCall) s =
      let ys := swapped (s.heap.read s.mem) i n hi (by omega)
      if i = n ∨ (i = 0 ∧ n = 1) then .ok (s.heap.read s.mem)[i] ⟨s.mem.write s.heap.off ys, s.st, { s.heap with len := n }⟩
      else .panic ⟨s.mem.write s.heap.off ys, s.st, s.heap⟩ := by
  obtain ⟨m, t, h⟩ := s
  dsimp only at hn hw hi ⊢
  have hl : h.len = n + 1 := by simpa using hn
  have e1 : (⟨m, t, h⟩ : HS T τ) = HS.at m h h (h.read m) t := by rw [HS.at, Sl.write_read]
  have hsw := heapSwapM_at (m := m) (h := h) (hp := h) (xs := h.read m) (by simp) t i n hi (by omega)
  have hlast : (swapped (h.read m) i n hi (by omega))[n]? = some (h.read m)[i] := by
    rw [swapped, List.getElem?_set_self (by simp; omega)]
  have hself : i = n → swapped (h.read m) i n hi (by omega) = h.read m := by
    intro e; subst e; simp [swapped]
  generalize hys : swapped (h.read m) i n hi (by omega) = ys at hsw hlast hself ⊢
  have hyl : ys.length = n + 1 := by rw [← hys]; simp [swapped, hl]
  have hdn := heapDown_nil (m := m) (h := h) (hp := h) (xs := ys) (by omega) i n (by omega) t
  have hup := heapUp_nil (m := m) (h := h) (hp := h) (xs := ys) (by omega) i (by omega) t
  have hz : ((h.len : Int) - 1) = (n : Int) := by omega
  rw [List.getElem?_eq_getElem (by omega)] at hlast
  injection hlast with hlast
  have hcell := Mem.write_in m h.off ys n (by omega)
  have hrun : removeHeapFuncM (i : Int) (fun _ _ => nilCall) (⟨m, t, h⟩ : HS T τ) = (removeHeapFuncSiftM h (i : Int) (n : Int) (fun _ _ => nilCall) >>= fun _ => (do
      let h' ← HS.on (h.slice 0 (n : Int))
      HS.assign h'
      HS.on (h.get (n : Int)) : GoM (HS T τ) T)) (⟨m, t, h⟩ : HS T τ) := by
    simp only [removeHeapFuncM, GoM.bind_def (x := HS.recv), HS.recv]
    rw [hz]
  have hsift : removeHeapFuncSiftM h (i : Int) (n : Int) (fun _ _ => nilCall) (⟨m, t, h⟩ : HS T τ) =
      if i = n ∨ (i = 0 ∧ n = 1) then .ok () (HS.at m h h ys t) else .panic (HS.at m h h ys t) := by
    by_cases hin : i = n
    · rw [removeHeapFuncSiftM, if_neg (by omega), if_pos (.inl hin), hself hin, ← e1]; rfl
    · rw [removeHeapFuncSiftM, if_pos (by omega), GoM.bind_def, e1, hsw]
      dsimp only
      rw [show ((i : Int)).toNat = i by omega, show ((n : Int)).toNat = n by omega, GoM.bind_def, hdn]
      by_cases hd : n ≤ 2 * i + 1
      · rw [if_pos hd]
        simp only [Bool.not_false, if_true, hup]
        by_cases h0 : i = 0
        · rw [if_pos h0, if_pos (by omega)]
        · rw [if_neg h0, if_neg (by omega)]
      · rw [if_neg hd, if_neg (by omega)]
  rw [hrun, GoM.bind_def, hsift]
  by_cases hc : i = n ∨ (i = 0 ∧ n = 1)
  · rw [if_pos hc, if_pos hc]
    dsimp only
    rw [popCut h n (by omega) hw.1]
    simp only [HS.at, hcell, hlast]
  · rw [if_neg hc, if_neg hc]

theorem swapped_ends (x y z : T) (l : List T) :
    swapped (x :: y :: z :: l) 0 (l.length + 2) (by simp) (by simp) = (z :: l).getLast (by simp) :: y :: (z :: l).dropLast ++ [x] := by
  have hd := List.dropLast_concat_getLast (l := z :: l) (by simp)
  have hlen : (z :: l).dropLast.length = l.length := by simp
  generalize (z :: l).dropLast = D at hd hlen ⊢
  generalize (z :: l).getLast (by simp) = w at hd ⊢
  have hget : (x :: y :: z :: l)[l.length + 2]'(by simp) = w := by
    simp only [List.getElem_cons_succ, ← hd, ← hlen]
    simp
  rw [swapped, hget]
  show ((x :: y :: z :: l).set 0 w).set (l.length + 2) x = _
  rw [← hd, ← hlen]
  simp

end

/-- The queue has these elements, in this order of its heap slice. -/
structure QueueHas (l : List T) (s : HS T τ) : Prop where
  wf : s.heap.WF s.mem
  read : s.heap.read s.mem = l

theorem blind_step [GoZero T] (grow : Nat → Nat → Nat) {l : List T} {s : HS T τ} (hq : QueueHas l s) (op : PQOp T) :
    (PQM.exec grow (.func fun _ _ => nilCall) s op).1 = (blindStep l op).1 ∧ QueueHas (blindStep l op).2 (PQM.exec grow (.func fun _ _ => nilCall) s op).2 := by
  have hlen : s.heap.len = l.length := by rw [← hq.read]; simp
  cases op with
  | push v =>
    obtain ⟨m1, h1, ha, _, e⟩ := push_nil grow v s hq.wf
    have hq' : QueueHas (l ++ [v]) (⟨m1, s.st, h1⟩ : HS T τ) := ⟨ha.wf, by rw [ha.read, hq.read]⟩
    simp only [PQM.exec, PQM.push, HS.observe, e]
    cases l with
    | nil => rw [if_pos (by simpa using hlen)]; exact ⟨rfl, hq'⟩
    | cons x l => rw [if_neg (by simp at hlen; omega)]; exact ⟨rfl, hq'⟩
  | pop =>
    simp only [PQM.exec, PQM.pop, HS.observe]
    cases hl : l with
    | nil => subst hl; rw [pop_nil_empty s (by simpa using hlen)]; exact ⟨rfl, hq⟩
    | cons x l1 =>
      have e := pop_nil s hq.wf l1.length (by rw [hq.read, hl]; rfl)
      have h0 : ∀ hh, (s.heap.read s.mem)[0]'hh = x := by
        intro hh; simp only [hq.read, hl]; rfl
      have hws : ∀ ys : List T, ys.length = s.heap.len → ∀ k ≤ s.heap.len, QueueHas (ys.take k) (⟨s.mem.write s.heap.off ys, s.st, { s.heap with len := k }⟩ : HS T τ) := by
        intro ys hy k hk
        refine ⟨⟨Nat.le_trans hk hq.wf.1, hq.wf.2⟩, ?_⟩
        have := Sl.read_take (s.mem.write s.heap.off ys) s.heap k hk
        rw [this, Sl.read_write_self _ _ _ hy]
      have hread := hq.read
      rw [hl] at hread
      simp only [hread] at e
      rw [e]
      cases l1 with
      | nil =>
        rw [if_pos (by simp)]
        refine ⟨rfl, ?_⟩
        have := hws [x] (by rw [hlen, hl]) 0 (by omega)
        simpa [swapped, blindStep] using this
      | cons y l2 =>
        cases l2 with
        | nil =>
          rw [if_pos (by simp)]
          refine ⟨rfl, ?_⟩
          have := hws [y, x] (by rw [hlen, hl]; rfl) 1 (by rw [hlen, hl]; simp)
          simpa [swapped, blindStep] using this
        | cons z l3 =>
          rw [if_neg (by simp)]
          refine ⟨rfl, ?_⟩
          have e2 := swapped_ends x y z l3
          simp only [List.length_cons] at e2 ⊢
          rw [e2]
          have hy : ((z :: l3).getLast (by simp) :: y :: (z :: l3).dropLast ++ [x]).length = s.heap.len := by
            rw [hlen, hl]; simp
          have := hws _ hy s.heap.len (Nat.le_refl _)
          rw [List.take_of_length_le (by omega)] at this
          exact this
  | top =>
    simp only [PQM.exec, PQM.top, HS.observe, GoM.bind_def, HS.recv, HS.on]
    cases hl : l with
    | nil =>
      subst hl
      rw [Sl.get_panic s.heap s.mem 0 (by simp at hlen; omega)]
      exact ⟨rfl, hq⟩
    | cons x l1 =>
      subst hl
      have := Sl.get_ok s.heap s.mem 0 (by rw [hlen]; simp)
      simp only [hq.read] at this
      rw [show ((0 : Nat) : Int) = 0 from rfl] at this
      rw [this]
      exact ⟨rfl, hq⟩
  | clear =>
    have := Sl.slice_zero s.heap s.mem 0 (by omega)
    simp only [PQM.exec, PQM.clear, HS.observe, GoM.bind_def, HS.recv, HS.on, HS.assign]
    rw [show ((0 : Nat) : Int) = 0 from rfl] at this
    rw [this]
    exact ⟨by cases l <;> rfl, ⟨⟨Nat.zero_le _, hq.wf.2⟩, by cases l <;> rfl⟩⟩
  | len =>
    have : (PQM.exec grow (.func fun _ _ => nilCall) s .len : PQObs T × HS T τ) = (.num s.heap.len, s) := rfl
    rw [this, hlen]
    exact ⟨by cases l <;> rfl, by cases l <;> exact hq⟩
  | isEmpty =>
    have : (PQM.exec grow (.func fun _ _ => nilCall) s .isEmpty : PQObs T × HS T τ) = (.flag (s.heap.len == 0), s) := rfl
    rw [this, hlen]
    exact ⟨by cases l <;> rfl, by cases l <;> exact hq⟩

theorem blind_run [GoZero T] (grow : Nat → Nat → Nat) (ops : List (PQOp T)) : ∀ {l : List T} {s : HS T τ}, QueueHas l s →
    (PQM.execAll grow (.func fun _ _ => nilCall) s ops).1 = (blindRun l ops).1 ∧ QueueHas (blindRun l ops).2 (PQM.execAll grow (.func fun _ _ => nilCall) s ops).2 := by
  induction ops with
  | nil => intro l s hq; exact ⟨rfl, hq⟩
  | cons op ops ih =>
    intro l s hq
    obtain ⟨h1, h2⟩ := blind_step grow hq op
    obtain ⟨h3, h4⟩ := ih h2
    exact ⟨by simp only [PQM.execAll, blindRun, h1, h3], h4⟩

/-! ## Skip lists -/

theorem walkKeys_ne {dec : K → Dec} {sl : SL K V} {i f p : Nat} {n : SLNode K V} (h : sl.deref p = .ret n) : walkKeys dec sl i (f + 1) (some p) ≠ [] := by
  simp [walkKeys, h]

theorem outerKeys_ne {less : K → K → Bool} {sl : SL K V} {ids : List Nat} {m : List (K × V)} (hi : SLInv less sl ids m) (hm : m ≠ []) (dec : K → Dec) :
    ∀ i, 0 < i → i ≤ 40 → outerKeys dec sl i .head ≠ [] := by
  have hids : ids ≠ [] := by
    intro e; have := hi.kvs; rw [e] at this; simp at this; exact hm this
  intro i
  induction i with
  | zero => intro h; omega
  | succ i ih =>
    intro _ hle
    have hget := SL.nextAt_of_get (hi.linked.head_get i (by omega))
    rw [outerKeys, hget]
    dsimp only
    cases hf : firstAt sl.lvl i ids with
    | none =>
      have hi0 : 0 < i := by
        rcases Nat.eq_zero_or_pos i with e | e
        · subst e
          cases ids with
          | nil => exact absurd rfl hids
          | cons q r =>
            have hp := hi.lvl_pos q (by simp)
            simp [firstAt, hp] at hf
        · exact e
      simp only [walk, walkKeys, List.nil_append]
      exact ih hi0 (by omega)
    | some q =>
      have hq : q ∈ ids := List.mem_of_find?_eq_some hf
      obtain ⟨e, _, he⟩ := mem_kv hi.kvs hq
      obtain ⟨n, hn, _⟩ := SL.kv_some he
      have hd : sl.deref q = .ret n := idx_of_get hn
      intro e0
      exact walkKeys_ne hd (List.append_eq_nil_iff.1 e0).1

theorem opCalls_ne {less : K → K → Bool} {sl : SL K V} {ids : List Nat} {m : List (K × V)} (hi : SLInv less sl ids m) (hm : m ≠ []) (c : K → K → Int)
    (op : SMOp K V) (hk : op.key? ≠ none) : opCalls c sl op ≠ [] := by
  have h1 := fun dec : K → Dec => outerKeys_ne hi hm dec sl.level hi.level_pos hi.level_le
  cases op <;> first | exact absurd rfl hk | simp [opCalls, lowerCalls, nodeCalls, removeCalls, withKey, h1]

theorem lawful_const : LawfulCmp (fun _ _ : K => (0 : Int)) := by
  refine ⟨⟨?_, ?_, ?_⟩, ?_⟩ <;> simp [Equiv]

theorem callAll_nil (p : K × K) (ps : List (K × K)) (t : τ) : callAll (fun _ _ => nilCall : CmpM K τ) (p :: ps) t = .panic t := rfl

theorem slot_step {sl : SL K V} {ids : List Nat} {e : Option (K × V)} (hi : SLInv (SLImpl.func fun _ _ : K => 0).less sl ids e.toList) (rnd : Nat) (op : SMOp K V) (t : τ) :
    ∃ sl' ids', SLInv (SLImpl.func fun _ _ : K => 0).less sl' ids' (slotStep e op).2.toList ∧
      ((slotStep e op).1 = .panicked ∧ SLM.exec (fun _ _ => nilCall : CmpM K τ) rnd op ⟨sl, t⟩ = .panic ⟨sl', t⟩ ∨
        SLM.exec (fun _ _ => nilCall : CmpM K τ) rnd op ⟨sl, t⟩ = .ok (slotStep e op).1 ⟨sl', t⟩) := by
  have ha : AgreesWith (fun _ _ => nilCall : CmpM K τ) (fun _ _ => 0) := fun _ _ _ _ _ h => nomatch h
  obtain ⟨sl1, ids1, h1, h2⟩ := SLInv.exec (impl := .func fun _ _ => 0) lawful_const hi rnd op
  have hf := exec_follows ha t h1
  have hc := (hi.opCalls (fun _ _ => 0) op).1
  by_cases hp : op.key? ≠ none ∧ e ≠ none
  · have hne := opCalls_ne hi (by cases e with | none => exact absurd rfl hp.2 | some x => simp) (fun _ _ => 0) op hp.1
    obtain ⟨p, ps, e2⟩ := List.exists_cons_of_ne_nil hne
    rw [e2] at hf
    simp only [Follows, callAll_nil] at hf
    obtain ⟨cache, hcl, hf⟩ := hf
    have hs : slotStep e op = (.panicked, e) := by
      cases e with
      | none => exact absurd rfl hp.2
      | some x => cases op <;> first | exact absurd rfl hp.1 | rfl
    rw [hs]
    exact ⟨_, ids, hi.cache hcl, .inl ⟨rfl, hf⟩⟩
  · have hnil : opCalls (fun _ _ => 0) sl op = [] := by
      cases hcs : opCalls (fun _ _ => 0) sl op with
      | nil => rfl
      | cons p ps =>
        have := hc p (by rw [hcs]; simp)
        exfalso
        apply hp
        refine ⟨by rw [this.1]; simp, ?_⟩
        intro e0
        rw [e0] at this
        simp at this
    rw [hnil] at hf
    simp only [Follows, callAll] at hf
    have hs : (SMap.step (SLImpl.func fun _ _ : K => 0).less e.toList op).1 = (slotStep e op).1 ∧
        (SMap.step (SLImpl.func fun _ _ : K => 0).less e.toList op).2 = (slotStep e op).2.toList := by
      cases e with
      | none => cases op <;> exact ⟨rfl, rfl⟩
      | some x =>
        cases op <;> first | exact ⟨rfl, rfl⟩ | exact absurd ⟨by simp [SMOp.key?], by simp⟩ hp
    rw [hs.1] at hf
    rw [hs.2] at h2
    exact ⟨sl1, ids1, h2, .inr hf⟩

theorem slot_run (h : List (Nat × SMOp K V)) : ∀ {sl : SL K V} {ids : List Nat} {e : Option (K × V)} (t : τ), SLInv (SLImpl.func fun _ _ : K => 0).less sl ids e.toList →
    ∃ sl' ids', SLM.run (fun _ _ => nilCall : CmpM K τ) ⟨sl, t⟩ h = ((slotRun e (opsOf h)).1, ⟨sl', t⟩) ∧
      SLInv (SLImpl.func fun _ _ : K => 0).less sl' ids' (slotRun e (opsOf h)).2.toList := by
  induction h with
  | nil => intro sl ids e t hi; exact ⟨sl, ids, rfl, hi⟩
  | cons o h ih =>
    intro sl ids e t hi
    obtain ⟨rnd, op⟩ := o
    obtain ⟨sl1, ids1, hi1, hx⟩ := slot_step hi rnd op t
    obtain ⟨sl2, ids2, e2, hi2⟩ := ih t hi1
    refine ⟨sl2, ids2, ?_, hi2⟩
    have hops : opsOf ((rnd, op) :: h) = op :: opsOf h := rfl
    rcases hx with ⟨e3, hx⟩ | hx
    · simp only [SLM.run, hx, e2, hops, slotRun, e3]
    · simp only [SLM.run, hx, e2, hops, slotRun]

end Stl4go
