import Verif.Proofs.CallCost
import Verif.Proofs.HeapTally
import Verif.Proofs.SearchTally
import Verif.Props.BinarySearch
import Verif.Props.Heap
import Verif.Props.HeapAny
import Verif.Props.CallbackSearch
/-!
# C05, C14: the bounds on comparisons, as bounds on calls

`C05_*_cost` and `C14_*` bound a counter that the instrumented models keep. Here nothing is instrumented: the comparison function is Go code that reports its calls itself, in a
variable of its own that each call raises by at most `c`, and what a search or a heap function adds to that variable is bounded. It may answer anything, change elements, or panic.
-/
namespace Stl4go
variable {T τ ρ : Type}

/-- C05: `LowerBoundFunc`, `UpperBoundFunc` and `BinarySearchFunc` make at most `floor(log2 n) + 1` calls, `BinarySearchFunc` one more; no calls on an empty slice. -/
theorem C05_calls (μ : ρ → Nat) (c : Nat) (less : T → T → GoM (CS T ρ) Bool) (hl : ∀ x y s, RaisesBy (fun s : CS T ρ => μ s.st) c s (less x y s))
    (a : Sl) (value : T) (s : CS T ρ) :
    RaisesBy (fun s => μ s.st) ((if a.len = 0 then 0 else Nat.log2 a.len + 1) * c) s (lowerBoundFuncE a value less s) ∧
    RaisesBy (fun s => μ s.st) ((if a.len = 0 then 0 else Nat.log2 a.len + 1) * c) s (upperBoundFuncE a value less s) ∧
    RaisesBy (fun s => μ s.st) ((if a.len = 0 then 0 else Nat.log2 a.len + 2) * c) s (binarySearchFuncE a value less s) := by
  have lower := (C110_lowerBound a value less s).raises (μ := fun s => μ s.st) (c := c) (fun j s => hl _ _ _)
  refine ⟨lower, (C110_upperBound a value less s).raises (μ := fun s => μ s.st) (c := c) ?_, ?_⟩
  · intro j s
    have := hl value (s.mem.cell (a.off + j)) s
    simp only [withElem, GoM.bind_def]
    revert this
    cases less value (s.mem.cell (a.off + j)) s with
    | ok b s' => exact fun h => h
    | panic s' => exact fun h => h
    | diverge => exact fun h => h
  · rw [C110_binarySearch]
    revert lower
    cases lowerBoundFuncE a value less s with
    | panic s' => exact fun h => h.mono (Nat.mul_le_mul_right c (by split <;> omega))
    | diverge => exact fun _ => trivial
    | ok p s1 =>
      intro h
      have h : μ s1.st ≤ μ s.st + (if a.len = 0 then 0 else Nat.log2 a.len + 1) * c := h
      simp only []
      by_cases hp : p < a.len
      · rw [if_pos hp]
        have h2 := hl value (s1.mem.cell (a.off + p)) s1
        rw [if_neg (by omega)] at h
        rw [if_neg (by omega), Nat.succ_mul (Nat.log2 a.len + 1)]
        simp only [withElem]
        revert h2
        cases less value (s1.mem.cell (a.off + p)) s1 with
        | ok b s' => intro h2; cases b <;> exact Nat.le_trans (show μ s'.st ≤ μ s1.st + c from h2) (by show _ ≤ μ s.st + _; omega)
        | panic s' => intro h2; exact Nat.le_trans (show μ s'.st ≤ μ s1.st + c from h2) (by show _ ≤ μ s.st + _; omega)
        | diverge => exact fun _ => trivial
      · rw [if_neg hp]
        exact Nat.le_trans h (Nat.add_le_add_left (Nat.mul_le_mul_right c (by split <;> omega)) _)

/-- C05: the counter in the other theorems about C05 is the number of calls. -/
theorem C05_counter (l : T → T → Bool) (a : Sl) (v : T) (m : Mem T) (t : Nat) :
    (∃ r n, lowerBoundFuncC (a.read m) v l = .ret (r, n) ∧
      lowerBoundFuncE a v (fun x y s => .ok (l x y) { s with st := s.st + 1 }) ⟨m, t⟩ = .ok r ⟨m, t + n⟩) ∧
    ∃ r n, upperBoundFuncC (a.read m) v l = .ret (r, n) ∧
      upperBoundFuncE a v (fun x y s => .ok (l x y) { s with st := s.st + 1 }) ⟨m, t⟩ = .ok r ⟨m, t + n⟩ := by
  constructor
  · obtain ⟨r, n, e, -⟩ := C05_lowerBound_cost l (a.read m) v
    refine ⟨r, n, e, lowerBoundFuncLoopE_tally l a v m t _ 0 a.len 0 r n ?_⟩
    simpa [lowerBoundFuncC] using e
  · obtain ⟨r, n, e, -⟩ := C05_upperBound_cost l (a.read m) v
    refine ⟨r, n, e, upperBoundFuncLoopE_tally l a v m t _ 0 a.len 0 r n ?_⟩
    simpa [upperBoundFuncC] using e

/-- C14: `MakeHeapFunc` makes at most `2 * n` calls, `PushHeapFunc` at most `floor(log2 (n + 1))`, `PopHeapFunc` and `RemoveHeapFunc` at most `2 * floor(log2 (n - 1))`,
where `n` is the length before. -/
theorem C14_calls [GoZero T] (μ : τ → Nat) (c : Nat) (less : LessA T τ) (hl : ∀ x y s, RaisesBy (fun s : HS T τ => μ s.st) c s (less x y s))
    (grow : Nat → Nat → Nat) (a : Sl) (v : T) (i : Int) (s : HS T τ) (hw : s.heap.WF s.mem) :
    RaisesBy (fun s => μ s.st) (2 * a.len * c) s (makeHeapFuncA a less s) ∧
    RaisesBy (fun s => μ s.st) (Nat.log2 (s.heap.len + 1) * c) s (pushHeapFuncA grow v less s) ∧
    RaisesBy (fun s => μ s.st) (2 * Nat.log2 (s.heap.len - 1) * c) s (popHeapFuncA less s) ∧
    RaisesBy (fun s => μ s.st) (2 * Nat.log2 (s.heap.len - 1) * c) s (removeHeapFuncA i less s) := by
  refine ⟨(C138_make less a s).raises hl, ?_, ?_, ?_⟩
  · obtain ⟨m1, h1, _, h⟩ := C138_push grow less v s hw
    have := h.raises hl
    revert this
    cases pushHeapFuncA grow v less s <;> exact fun h => h
  · by_cases hn : s.heap.len = 0
    · rw [(C138_pop less s hw).1 hn]; exact Nat.le_add_right _ _
    · obtain ⟨r, h, e⟩ := (C138_pop less s hw).2 (s.heap.len - 1) (by omega)
      rw [e]; exact cutTo_raises (h.raises hl)
  · by_cases hi : 0 ≤ i ∧ i < s.heap.len
    · obtain ⟨r, h, e⟩ := (C138_remove less i s hw).2 hi
      rw [e]; exact cutTo_raises (h.raises hl)
    · rw [(C138_remove less i s hw).1 hi]; exact Nat.le_add_right _ _

/-- C14: the counter in the other theorems about C14 is the number of calls: with a comparison function that counts its calls and answers as `l`, each function adds exactly what
the instrumented function counts. -/
theorem C14_counter [GoZero T] (l : T → T → Bool) (grow : Nat → Nat → Nat) (a : Sl) (v : T) (i : Nat) (s : HS T Nat) (hw : s.heap.WF s.mem) :
    (∃ ys c, makeHeapFuncC (a.read s.mem) l = .ret (ys, c) ∧
      makeHeapFuncM a (fun x y t => .ok (l x y) (t + 1)) s = .ok () ⟨s.mem.write a.off ys, s.st + c, s.heap⟩) ∧
    (∃ ys c s', pushHeapFuncC (s.heap.read s.mem) v l = .ret (ys, c) ∧
      pushHeapFuncM grow v (fun x y t => .ok (l x y) (t + 1)) s = .ok () s' ∧ s'.st = s.st + c ∧ s'.heap.read s'.mem = ys) ∧
    (0 < s.heap.len → ∃ r ys c s', popHeapFuncC (s.heap.read s.mem) l = .ret ((r, ys), c) ∧
      popHeapFuncM (fun x y t => .ok (l x y) (t + 1)) s = .ok r s' ∧ s'.st = s.st + c ∧ s'.heap.read s'.mem = ys) ∧
    (i < s.heap.len → ∃ r ys c s', removeHeapFuncC (s.heap.read s.mem) i l = .ret ((r, ys), c) ∧
      removeHeapFuncM i (fun x y t => .ok (l x y) (t + 1)) s = .ok r s' ∧ s'.st = s.st + c ∧ s'.heap.read s'.mem = ys) := by
  have cut : ∀ (ys : List T) (r : T), s.heap.len = ys.length + 1 → Sl.read (s.mem.write s.heap.off (ys ++ [r])) { s.heap with len := ys.length } = ys := by
    intro ys r h
    have := Sl.read_sub (s.mem.write s.heap.off (ys ++ [r])) s.heap 0 ys.length s.heap.cap (by omega)
    rw [Sl.read_write_self s.mem s.heap (ys ++ [r]) (by simpa using h.symm)] at this
    simpa using this
  refine ⟨?_, ?_, fun h => ?_, fun h => ?_⟩
  · obtain ⟨ys, c, e, -⟩ := C14_make_cost l (a.read s.mem)
    refine ⟨ys, c, e, ?_⟩
    have := (makeHeapFuncLoopM_tally (m := s.mem) (h := a) (hp := s.heap) a.len (a.len / 2) (a.read s.mem) ys s.st 0 c (by simp) (by simp) (by simpa [makeHeapFuncC] using e)).2
    rw [HS.at_self] at this
    exact this
  · obtain ⟨ys, c, e, -⟩ := C14_push_cost l (s.heap.read s.mem) v
    obtain ⟨h', m', -, hl, e'⟩ := pushHeapFuncM_tally grow v s hw e
    exact ⟨ys, c, _, e, e', rfl, Sl.read_write_self _ _ _ hl⟩
  · obtain ⟨⟨r, ys⟩, c, e, -⟩ := C14_pop_cost l (s.heap.read s.mem) (List.ne_nil_of_length_pos (by simpa using h))
    obtain ⟨hl, e'⟩ := popHeapFuncM_tally s hw.1 e
    exact ⟨r, ys, c, _, e, e', rfl, cut ys r hl⟩
  · obtain ⟨⟨r, ys⟩, c, e, -⟩ := C14_remove_cost l (s.heap.read s.mem) i (by simpa using h)
    obtain ⟨hl, e'⟩ := removeHeapFuncM_tally s hw.1 i h e
    exact ⟨r, ys, c, _, e, e', rfl, cut ys r hl⟩

/-! ## Concrete cases -/

/-- `<` that counts its calls, and panics at the call numbered `stop`. -/
def tallyLess (stop : Nat) : LessA Nat Nat := fun x y s =>
  if s.st + 1 = stop then .panic { s with st := s.st + 1 } else .ok (decide (x < y)) { s with st := s.st + 1 }

/-- The same for a search. -/
def tallyLessC : Nat → Nat → GoM (CS Nat Nat) Bool := fun x y s => .ok (decide (x < y)) { s with st := s.st + 1 }

/-- The hypotheses of `C14_calls` and `C05_calls` are met. -/
example (stop : Nat) : (∀ x y s, RaisesBy (fun s : HS Nat Nat => id s.st) 1 s (tallyLess stop x y s)) ∧
    ∀ x y s, RaisesBy (fun s : CS Nat Nat => id s.st) 1 s (tallyLessC x y s) := by
  refine ⟨fun x y s => ?_, fun x y s => Nat.le_refl _⟩
  unfold tallyLess
  split <;> exact Nat.le_refl _

/-- How a run ended and the number of calls. -/
def callsSeen {α : Type} : Res (HS Nat Nat) α → Option (Bool × Nat)
  | .ok _ s => some (true, s.st)
  | .panic s => some (false, s.st)
  | .diverge => none

/-- Removing the least of eight elements takes 4 calls (at most 4), pushing a new least one takes 3 (at most 3); with a comparison function that panics at the third call there are three. -/
example : callsSeen (popHeapFuncA (tallyLess 0) ⟨reachMem [1, 2, 3, 4, 5, 6, 7, 8], 0, ⟨0, 8, 8⟩⟩) = some (true, 4) ∧
    callsSeen (pushHeapFuncA (fun _ n => n) 0 (tallyLess 0) ⟨reachMem [1, 2, 3, 4, 5, 6, 7], 0, ⟨0, 7, 7⟩⟩) = some (true, 3) ∧
    callsSeen (popHeapFuncA (tallyLess 3) ⟨reachMem [1, 2, 3, 4, 5, 6, 7, 8], 0, ⟨0, 8, 8⟩⟩) = some (false, 3) := by decide +kernel

/-- The calls a search made. -/
def searchCalls {α : Type} : Res (CS Nat Nat) α → Option Nat
  | .ok _ s => some s.st
  | _ => none

/-- Searching eight elements takes 4 calls, and one more to compare what was found. -/
example : searchCalls (lowerBoundFuncE ⟨0, 8, 8⟩ 1 tallyLessC ⟨reachMem [1, 2, 3, 4, 5, 6, 7, 8], 0⟩) = some 4 ∧
    searchCalls (binarySearchFuncE ⟨0, 8, 8⟩ 1 tallyLessC ⟨reachMem [1, 2, 3, 4, 5, 6, 7, 8], 0⟩) = some 5 ∧
    searchCalls (lowerBoundFuncE ⟨0, 0, 0⟩ 1 tallyLessC ⟨reachMem [], 0⟩) = some 0 := by decide +kernel

end Stl4go
