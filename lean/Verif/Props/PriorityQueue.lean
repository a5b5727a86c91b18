import Verif.Proofs.PriorityQueue
/-!
# Properties C15-C16: `/repo/priority_queue.go`

`PQRun` (`Spec/PriorityQueue.lean`) describes the allowed observations of a multiset with extract-min; `PQ.execAll`
(`Proofs/PriorityQueue.lean`) runs the model and records what the caller sees.
-/
namespace Stl4go
variable {T : Type}

/-- C15 for `NewPriorityQueueFunc`. `hung` and `panicked` only occur where `PQRun` allows them: never, and on an empty queue. -/
theorem C15_newPriorityQueueFunc (less : T → T → Bool) (hw : StrictWeak less) (ops : List (PQOp T)) :
    ∃ m, PQRun less [] ops ((newPriorityQueueFunc less).execAll ops).1 m :=
  ⟨_, (newPriorityQueueFunc less).execAll_run hw (by intro i hi; simp [newPriorityQueueFunc] at hi) ops⟩

/-- C15 for `NewPriorityQueue`. -/
theorem C15_newPriorityQueue [GoOrd T] [LawfulGoOrd T] (ops : List (PQOp T)) :
    ∃ m, PQRun GoOrd.lt [] ops ((newPriorityQueue : PQ T).execAll ops).1 m :=
  ⟨_, (newPriorityQueue : PQ T).execAll_run LawfulGoOrd.weak (by intro i hi; simp [newPriorityQueue] at hi) ops⟩

/-- C15 for `NewPriorityQueueOn` and `NewPriorityQueueOf`: the queue starts with exactly the given elements. -/
theorem C15_newPriorityQueueOn [GoOrd T] [LawfulGoOrd T] (slice : List T) (ops : List (PQOp T)) :
    ∃ (pq : PQ T) (m₀ m : List T), newPriorityQueueOn slice = .ret pq ∧ newPriorityQueueOf slice = .ret pq ∧ m₀.Perm slice ∧
      PQRun GoOrd.lt m₀ ops (pq.execAll ops).1 m := by
  obtain ⟨h, e1, e2, e3⟩ := makeHeapFunc_spec (less := GoOrd.lt) (LawfulGoOrd.weak (T := T)) slice
  have : newPriorityQueueOn slice = .ret { heap := h, impl := PQImpl.ordered (inferInstance : GoOrd T) } := by
    simp [newPriorityQueueOn, makeMinHeap_eq, e1]
  exact ⟨_, _, _, this, this, e2, PQ.execAll_run { heap := h, impl := PQImpl.ordered (inferInstance : GoOrd T) } LawfulGoOrd.weak e3 ops⟩

/-- C15: what the panics of the specification mean for a single call: `Pop` and `Top` panic exactly on an empty queue,
whatever the order and whether or not the slice is a heap. -/
theorem C15_panic_iff_empty (pq : PQ T) :
    (pq.pop = .panic ↔ pq.heap = []) ∧ (pq.top = .panic ↔ pq.heap = []) := by
  rw [PQ.pop_eq]
  cases hh : pq.heap with
  | nil => simp [popHeapFunc_nil, PQ.top, hh, idx]
  | cons x xs =>
    obtain ⟨h', e1, -⟩ := popHeapFunc_any (less := pq.order) (x :: xs) (by simp)
    simp [e1, PQ.top, hh, idx]

/-- A history with duplicates, a failing pop and a clear. -/
example : ((newPriorityQueue : PQ Int).execAll [.push 3, .push 1, .push 1, .pop, .top, .len, .pop, .pop, .pop, .clear, .isEmpty]).1
    = [.unit, .unit, .unit, .val 1, .val 1, .num 2, .val 1, .val 3, .panicked, .unit, .flag true] := by decide

/-- C16: draining a queue built on a slice yields the sorted permutation of the slice. -/
theorem C16_drain_sorts [GoOrd T] [LawfulGoOrd T] (slice : List T) :
    ∃ xs : List T, (newPriorityQueueOn slice >>= PQ.drain (slice.length + 1)) = .ret xs ∧
      (newPriorityQueueOf slice >>= PQ.drain (slice.length + 1)) = .ret xs ∧
      xs.Perm slice ∧ SortedBy GoOrd.lt xs := by
  obtain ⟨h, e1, e2, e3⟩ := makeHeapFunc_spec (less := GoOrd.lt) (LawfulGoOrd.weak (T := T)) slice
  have : newPriorityQueueOn slice = .ret { heap := h, impl := PQImpl.ordered (inferInstance : GoOrd T) } := by
    simp [newPriorityQueueOn, makeMinHeap_eq, e1]
  obtain ⟨xs, g1, g2, g3⟩ := PQ.drain_spec (slice.length + 1) { heap := h, impl := PQImpl.ordered (inferInstance : GoOrd T) }
    LawfulGoOrd.weak e3 (by simp only; rw [e2.length_eq]; omega)
  refine ⟨xs, ?_, ?_, g2.trans e2, sortedBy_of_pairwise g3⟩
  · rw [this]; exact g1
  · show (newPriorityQueueOn slice >>= _) = _
    rw [this]; exact g1

example : (newPriorityQueueOn [5, 3, 9, 3, (1 : Int)] >>= PQ.drain 6) = .ret [1, 3, 3, 5, 9] := by decide

end Stl4go
