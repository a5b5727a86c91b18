import Verif.Proofs.PQClients
import Verif.Props.PriorityQueue
import Verif.Props.Heap
import Verif.Proofs.Sort
/-! # Properties C164–C165: programs that use heaps and priority queues -/
namespace Stl4go
variable {T : Type}

/-- C164: an element of a heap can be given any other value `x` where it stands. Removing it by its index, with `RemoveHeapFunc`, then
gives `x` and leaves a heap of the others. -/
theorem C164_remove (less : T → T → Bool) (hw : StrictWeak less) (h : List T) (i : Nat) (hi : i < h.length) (H : IsHeap less h) (x : T) :
    ∃ h', removeHeapFunc (h.set i x) (i : Int) less = .ret (x, h') ∧ (h[i] :: h').Perm h ∧ IsHeap less h' := by
  obtain ⟨h', e, p, H'⟩ := removeHeapFunc_changed hw h i hi H x
  exact ⟨h', e, (((List.Perm.swap _ _ _).trans (p.cons _)).trans (swap_in_perm x h i hi)).cons_inv, H'⟩

/-- C164: putting it back in with `PushHeapFunc` completes the change: a heap of the elements with `x` in place of the old one. -/
theorem C164_fix (less : T → T → Bool) (hw : StrictWeak less) (h : List T) (i : Nat) (hi : i < h.length) (H : IsHeap less h) (x : T) :
    ∃ h', heapFix (h.set i x) (i : Int) less = .ret h' ∧ h'.Perm (h.set i x) ∧ IsHeap less h' := by
  obtain ⟨h1, e1, p1, H1⟩ := removeHeapFunc_changed hw h i hi H x
  obtain ⟨h2, e2, p2, H2⟩ := pushHeapFunc_spec hw h1 x H1
  exact ⟨h2, by simp only [heapFix, e1, Outcome.ret_bind, e2], p2.trans p1, H2⟩

/-- C164 for `RemoveMinHeap` and `PushMinHeap`. -/
theorem C164_min [GoOrd T] [LawfulGoOrd T] (h : List T) (i : Nat) (hi : i < h.length) (H : IsHeap GoOrd.lt h) (x : T) :
    (∃ h', removeMinHeap (h.set i x) (i : Int) = .ret (x, h') ∧ (h[i] :: h').Perm h ∧ IsHeap GoOrd.lt h') ∧
      ∃ h', minHeapFix (h.set i x) (i : Int) = .ret h' ∧ h'.Perm (h.set i x) ∧ IsHeap GoOrd.lt h' := by
  have h1 := C164_remove GoOrd.lt LawfulGoOrd.weak h i hi H x
  have h2 := C164_fix GoOrd.lt LawfulGoOrd.weak h i hi H x
  refine ⟨by rw [removeMinHeap_eq]; exact h1, ?_⟩
  have e : minHeapFix (h.set i x) (i : Int) = heapFix (h.set i x) (i : Int) GoOrd.lt := by
    simp only [minHeapFix, heapFix, removeMinHeap_eq, pushMinHeap_eq]
  rw [e]
  exact h2

/-- The first of a heap is raised, the last lowered, one in between raised; and without repair the next `PopMinHeap` gives the wrong one. -/
example : isMinHeap [1, 2, 3, 4, (5 : Int)] = .ret true ∧ minHeapFix ([1, 2, 3, 4, 5].set 0 (9 : Int)) 0 = .ret [2, 4, 3, 5, 9] ∧
    minHeapFix ([1, 2, 3, 4, 5].set 4 (0 : Int)) 4 = .ret [0, 1, 3, 4, 2] ∧ removeMinHeap ([1, 2, 3, 4, 5].set 1 (9 : Int)) 1 = .ret (9, [1, 4, 3, 5]) ∧
    popMinHeap ([1, 2, 3, 4, 5].set 0 (9 : Int)) = .ret (9, [2, 4, 3, 5]) := by decide +kernel

/-- C165: pushing everything and popping whenever there are more than `k` leaves the `k` greatest: as many as there are up to `k`, and none
of those thrown away is greater than one kept. -/
theorem C165_greatest (less : T → T → Bool) (hw : StrictWeak less) (k : Nat) (xs : List T) :
    ∃ pq kept rest, keepGreatest k (newPriorityQueueFunc less) xs = .ret pq ∧ pq.drain (pq.len + 1) = .ret kept ∧
      (kept ++ rest).Perm xs ∧ kept.length = min k xs.length ∧ SortedBy less kept ∧ ∀ l ∈ kept, ∀ r ∈ rest, less l r = false := by
  obtain ⟨pq, rest, e, g, h⟩ := keepGreatest_spec hw k xs (newPriorityQueueFunc less) [] [] (PQ.Good.new less)
    ⟨.refl _, Nat.zero_le _, fun h => absurd rfl h, fun _ h => by cases h⟩
  rw [List.append_nil] at h
  obtain ⟨kept, e2, p2, s2⟩ := pq.drain_spec (pq.len + 1) (by rw [g.order]; exact hw) (by rw [g.order]; exact g.heap) (Nat.lt_succ_self _)
  rw [g.order] at s2
  refine ⟨pq, kept, rest, e, e2, (p2.append_right rest).trans (h.perm.trans (List.reverse_perm xs)), ?_, sortedBy_of_pairwise s2,
    fun l hl r hr => h.best l (p2.mem_iff.1 hl) r hr⟩
  have h1 := p2.length_eq
  have h2 := h.perm.length_eq
  have h3 := h.room
  simp only [List.length_append, List.length_reverse] at h2
  cases hr : rest with
  | nil => rw [hr] at h2; simp at h2; omega
  | cons r rs => have := h.full (by rw [hr]; simp); omega

/-- C165: a queue that holds sorted lists by their first elements merges them. -/
theorem C165_merge (less : T → T → Bool) (hw : StrictWeak less) (ls : List (List T)) (hs : ∀ l ∈ ls, SortedBy less l) :
    ∃ out, mergeAll less ls = .ret out ∧ out.Perm ls.flatten ∧ SortedBy less out := by
  obtain ⟨pq, e1, g1, s1, p1⟩ := mergeStart_spec hw ls _ (PQ.Good.new _) (fun a ha => by cases ha)
    (fun l hl => (sortedBy_pairwise l).1 (hs l hl))
  have p1' : (pending pq.heap).Perm ls.flatten := by simpa [pending, newPriorityQueueFunc] using p1
  obtain ⟨out, e2, p2, s2⟩ := mergeLoop_spec hw (ls.flatten.length + 1) pq (by rw [p1'.length_eq]; exact Nat.lt_succ_self _) g1 s1
  exact ⟨out, by simp only [mergeAll, e1, Outcome.ret_bind, e2], p2.trans p1', sortedBy_of_pairwise s2⟩

/-- C165: two queues facing each other give the (lower) median of a stream: the element in the middle of it when it is sorted. -/
theorem C165_median (less : T → T → Bool) (hw : StrictWeak less) (xs : List T) (hne : xs ≠ []) :
    ∃ x sorted, medianOf less xs = .ret x ∧ sorted.Perm xs ∧ SortedBy less sorted ∧ sorted[(xs.length - 1) / 2]? = some x := by
  have hf := flip_weak hw
  obtain ⟨lo, hi, e, gl, gh, h⟩ := medianRun_spec hw xs (newPriorityQueueFunc (fun a b => less b a)) (newPriorityQueueFunc less) []
    (PQ.Good.new _) (PQ.Good.new _) ⟨.refl _, .inl rfl, fun _ h => by cases h⟩
  rw [List.append_nil] at h
  obtain ⟨ls, e1, p1, s1⟩ := lo.drain_spec (lo.len + 1) (by rw [gl.order]; exact hf) (by rw [gl.order]; exact gl.heap) (Nat.lt_succ_self _)
  obtain ⟨hs, e2, p2, s2⟩ := hi.drain_spec (hi.len + 1) (by rw [gh.order]; exact hw) (by rw [gh.order]; exact gh.heap) (Nat.lt_succ_self _)
  rw [gl.order] at s1
  rw [gh.order] at s2
  have hlen := h.perm.length_eq
  have hsz := h.sizes
  simp only [List.length_append, List.length_reverse] at hlen
  have hpos : 0 < xs.length := List.length_pos_iff.mpr hne
  obtain ⟨x, lo', e3, _, p3, m3, e4⟩ := gl.pop hf (by intro h0; rw [h0] at hlen hsz; simp at hlen hsz; omega)
  -- the lower half without its greatest, in order
  obtain ⟨ls', e5, p5, s5⟩ := lo'.drain_spec (lo'.len + 1) (by rw [‹lo'.Good _›.order]; exact hf) (by rw [‹lo'.Good _›.order]; exact ‹lo'.Good _›.heap) (Nat.lt_succ_self _)
  rw [‹lo'.Good _›.order] at s5
  have pl : (ls'.reverse ++ [x]).Perm lo.heap :=
    (List.perm_append_singleton x ls'.reverse).trans (((ls'.reverse_perm.trans p5).cons x).trans p3)
  refine ⟨x, (ls'.reverse ++ [x]) ++ hs, ?_, ?_, ?_, ?_⟩
  · simp only [medianOf, e, Outcome.ret_bind, e4]
  · exact ((pl.append_right hs).trans (p2.append_left _)).trans (h.perm.trans (List.reverse_perm xs))
  · apply sortedBy_of_pairwise
    rw [List.pairwise_append]
    refine ⟨?_, s2, fun a ha b hb => h.apart a (pl.mem_iff.1 ha) b (p2.mem_iff.1 hb)⟩
    rw [List.pairwise_append]
    refine ⟨List.pairwise_reverse.2 s5, List.pairwise_singleton _ _, fun a ha b hb => ?_⟩
    rw [List.mem_singleton.1 hb]
    exact m3 a (pl.mem_iff.1 (List.mem_append_left _ ha))
  · have hl := pl.length_eq
    simp only [List.length_append, List.length_reverse, List.length_singleton] at hl
    rw [List.append_assoc, List.getElem?_append_right (by simp; omega)]
    have : (xs.length - 1) / 2 - ls'.reverse.length = 0 := by simp; omega
    rw [this]
    rfl

example : (match keepGreatest 3 (newPriorityQueue : PQ Int) [5, 1, 9, 7, 3, 8] with
    | .ret pq => pq.drain 10
    | _ => .panic) = .ret [7, 8, 9] ∧ mergeAll (fun x y : Int => decide (x < y)) [[1, 4, 9], [], [2, 3], [0, 5]] = .ret [0, 1, 2, 3, 4, 5, 9] ∧
    medianOf (fun x y : Int => decide (x < y)) [5, 1, 9, 7, 3, 8] = .ret 5 ∧ medianOf (fun x y : Int => decide (x < y)) [5, 1, 9] = .ret 5 := by decide +kernel

/-- A priority queue does not keep the order of elements that are equivalent. -/
example : (match (newPriorityQueueFunc (fun x y : Int × Int => decide (x.1 < y.1))).push (1, 1) with
    | .ret q => match q.push (1, 2) with
      | .ret q => match q.push (1, 3) with
        | .ret q => q.drain 4
        | _ => .panic
      | _ => .panic
    | _ => .panic) = .ret [(1, 1), (1, 3), (1, 2)] := by decide +kernel

end Stl4go
