import Verif.Proofs.HeapPath
/-!
# C171: a heap operation has to do with one path of the tree only

"Complexity: O(log(len(*heap)))" and the like (`/repo/heap.go:35`, `43`, `55`, `135`, `143`, `155`) says how many steps; here it is said which elements.
`SeesAt` (`Spec/HeapPath.lean`): what is in memory elsewhere has no influence on the call and is not changed by it. The comparison function may answer anything, panic or
not return.
-/
namespace Stl4go
variable {T τ : Type}

/-- C171: `PushHeapFunc` into a slice with room has to do with the new position and those above it. -/
theorem C171_push [GoZero T] (grow : Nat → Nat → Nat) (v : T) (less : LessM T τ) (s : HS T τ) (hr : s.heap.len < s.heap.cap) :
    SeesAt s.heap (fun i => Above i s.heap.len) s (pushHeapFuncM grow v less) := (along_push less grow v s hr).1

/-- C171: `PopHeapFunc` has to do with the last position, and with one path from the root and its brothers. -/
theorem C171_pop (less : LessM T τ) (s : HS T τ) (n : Nat) (hn : s.heap.len = n + 1) :
    ∃ p, p ≤ n ∧ SeesAt s.heap (fun k => k = n ∨ (k < n ∧ AtPath p k)) s (popHeapFuncM less) := by
  obtain ⟨p, hp, hr⟩ := along_pop less s n hn
  exact ⟨p, hp, hr.1⟩

/-- C171: `RemoveHeapFunc` has to do with the last position, and with one path from the root through `i` and its brothers. -/
theorem C171_remove (less : LessM T τ) (s : HS T τ) (i n : Nat) (hn : s.heap.len = n + 1) (hi : i ≤ n) :
    ∃ p, (Above i p ∧ p ≤ n) ∧ SeesAt s.heap (fun k => k = n ∨ (k < n ∧ AtPath p k)) s (removeHeapFuncM i less) := by
  obtain ⟨p, hp, hr⟩ := along_remove less s i n hn hi
  exact ⟨p, hp, hr.1⟩

/-- C171: likewise `PushMinHeap`, `PopMinHeap` and `RemoveMinHeap`, which compare with `<`. -/
theorem C171_min [GoZero T] [GoOrd T] (grow : Nat → Nat → Nat) (v : T) (s : HS T τ) :
    (s.heap.len < s.heap.cap → SeesAt s.heap (fun i => Above i s.heap.len) s (pushMinHeapM grow v)) ∧
    ∀ n, s.heap.len = n + 1 →
      (∃ p, p ≤ n ∧ SeesAt s.heap (fun k => k = n ∨ (k < n ∧ AtPath p k)) s popMinHeapM) ∧
      ∀ i : Nat, i ≤ n → ∃ p, (Above i p ∧ p ≤ n) ∧ SeesAt s.heap (fun k => k = n ∨ (k < n ∧ AtPath p k)) s (removeMinHeapM i) := by
  refine ⟨fun h => ?_, fun n hn => ⟨?_, fun i hi => ?_⟩⟩
  · rw [pushMinHeapM_eq]; exact C171_push grow v _ s h
  · rw [popMinHeapM_eq]; exact C171_pop _ s n hn
  · rw [removeMinHeapM_eq]; exact C171_remove _ s i n hn hi

/-- C171: likewise `Push` and `Pop` of every `PriorityQueue`; `Top` has to do with the first element only. -/
theorem C171_queue [GoZero T] (grow : Nat → Nat → Nat) (impl : PQImplM T τ) (v : T) (s : HS T τ) :
    (s.heap.len < s.heap.cap → SeesAt s.heap (fun i => Above i s.heap.len) s (PQM.push grow impl v)) ∧
    (∀ n, s.heap.len = n + 1 → ∃ p, p ≤ n ∧ SeesAt s.heap (fun k => k = n ∨ (k < n ∧ AtPath p k)) s (PQM.pop impl)) ∧
    SeesAt s.heap (fun k => k = 0) s (PQM.top : GoM (HS T τ) T) := by
  have nothing : ∀ {α : Type} {P : Nat → Prop}, SeesAt s.heap P s (GoM.panic : GoM (HS T τ) α) :=
    ⟨[], fun _ h => (nomatch h), fun m ht _ => ⟨m, rfl, onlyAt_nil ht⟩⟩
  refine ⟨fun h => ?_, fun n hn => ?_, (along_recv.bind (fun h s1 _ ⟨e, e1⟩ => by subst e e1; exact along_get 0 rfl) : Along _ _ _ _ _).1⟩
  · cases impl with
    | ordered ord => exact (C171_min grow v s).1 h
    | func less => exact C171_push grow v less s h
    | nil => exact nothing
  · cases impl with
    | ordered ord => exact ((C171_min grow v s).2 n hn).1
    | func less => exact C171_pop less s n hn
    | nil => exact ⟨0, Nat.zero_le _, nothing⟩

/-- C171: these are few. Of the positions above `p` there are at most `floor(log2 (p + 1)) + 1`; of those among the first `n` that are on the path to `p` or brothers, at most
`2 * floor(log2 n) + 1`. -/
theorem C171_few (p n : Nat) (hp : p < n) (xs : List Nat) (hn : xs.Nodup) :
    ((∀ k ∈ xs, Above k p) → xs.length ≤ Nat.log2 (p + 1) + 1) ∧ ((∀ k ∈ xs, k < n ∧ AtPath p k) → xs.length ≤ 2 * Nat.log2 n + 1) :=
  ⟨above_few p xs hn, atPath_few p n hp xs hn⟩

/-- C171: in terms of elements: after `PushHeapFunc` into a slice with room, the elements at positions that are not above the new one are as before, however the call ended. -/
theorem C171_push_keeps [GoZero T] (grow : Nat → Nat → Nat) (v : T) (less : LessM T τ) (s s' : HS T τ) (hr : s.heap.len < s.heap.cap)
    (e : pushHeapFuncM grow v less s = .ok () s' ∨ pushHeapFuncM grow v less s = .panic s') (k : Nat) (hk : ∀ i, Above i s.heap.len → k ≠ s.heap.off + i) :
    s'.mem.cell k = s.mem.cell k := by
  obtain ⟨L, hL, hs⟩ := C171_push grow v less s hr
  have h := hs.keeps
  have hk : k ∉ L := fun hm => by
    obtain ⟨i, hi, e⟩ := hL k hm
    exact hk i hi e
  rcases e with e | e
  · rw [e] at h; exact h k hk
  · rw [e] at h; exact h k hk

/-! ## Concrete cases -/

/-- A heap of ten elements with room for twelve. -/
def exTree : HS Nat Unit := ⟨⟨fun k => [1, 4, 2, 7, 5, 3, 6, 9, 8, 10].getD k 0, 12⟩, (), ⟨0, 10, 12⟩⟩

/-- The elements afterwards, and what was in the cells. -/
def treeSeen {α : Type} : Res (HS Nat Unit) α → Option (List Nat)
  | .ok _ s => some (s.heap.read s.mem)
  | _ => none

/-- Pushing 0: the elements at 10, 4, 1 and 0 move, the others do not. Popping: 10 goes down by 0, 2, 5. -/
example : treeSeen (pushHeapFuncM (fun _ n => n) 0 (pureLess (fun x y => decide (x < y))) exTree) = some [0, 1, 2, 7, 4, 3, 6, 9, 8, 10, 5] ∧
    treeSeen (popHeapFuncM (pureLess (fun x y => decide (x < y))) exTree) = some [2, 4, 3, 7, 5, 10, 6, 9, 8] := by decide +kernel

/-- The hypotheses are met; the positions above 10 are 10, 4, 1 and 0. -/
example : exTree.heap.len < exTree.heap.cap ∧ exTree.heap.len = 9 + 1 ∧ Above 4 10 ∧ Above 1 10 ∧ Above 0 10 ∧ ¬ Above 2 10 ∧ AtPath 5 6 ∧ ¬ AtPath 5 7 := by
  have no : ∀ i j, Above i j → i = j ∨ (0 < j ∧ Above i ((j - 1) / 2)) := fun i j h => above_iff.1 h
  have h2 : ¬ Above 2 10 := fun h => by
    have h := no _ _ h; simp at h
    have h := no _ _ h; simp at h
    have h := no _ _ h; simp at h
    have h := no _ _ h; simp at h
  refine ⟨by decide, by decide, ⟨1, rfl⟩, ⟨2, rfl⟩, ⟨3, rfl⟩, h2, Or.inr ⟨by decide, 1, rfl⟩, ?_⟩
  rintro (h | ⟨_, h⟩)
  · exact absurd (above_le h) (by decide)
  · have h := no _ _ h; simp at h
    have h := no _ _ h; simp at h
    have h := no _ _ h; simp at h

end Stl4go
