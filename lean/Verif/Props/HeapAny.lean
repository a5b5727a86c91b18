import Verif.Proofs.HeapAny
import Verif.Proofs.PanicEq
/-!
# C138: heaps under a comparison function that reaches the heap itself

The comparison function is any Go code: it may write elements of the slice, push, pop, assign the heap variable, panic, or never return.
Whatever it does, a heap function only compares and exchanges elements of the slice it was given, so it ends after a bounded number of calls
and fails only if a call fails. `HeapRuns` (in `Spec/HeapAny.lean`) says this of a result.
-/
namespace Stl4go
variable {T τ : Type}

/-- C138: `MakeHeapFunc` compares and exchanges elements of the slice, at most `2 * len` times; it panics or hangs only inside a call of the
comparison function. -/
theorem C138_make (less : LessA T τ) (a : Sl) (s : HS T τ) : HeapRuns less a (2 * a.len) s (fun _ _ => True) (makeHeapFuncA a less s) :=
  makeHeapFuncA_runs s

/-- C138: `PushHeapFunc` appends, assigns the variable, and then only compares and exchanges elements of the slice it assigned. What the comparison function
assigns to the variable stays. -/
theorem C138_push [GoZero T] (grow : Nat → Nat → Nat) (less : LessA T τ) (v : T) (s : HS T τ) (hw : s.heap.WF s.mem) :
    ∃ m1 h1, AddedLast s.mem s.heap v m1 h1 ∧
      HeapRuns less h1 (Nat.log2 (s.heap.len + 1)) ⟨m1, s.st, h1⟩ (fun _ _ => True) (pushHeapFuncA grow v less s) :=
  pushHeapFuncA_runs grow v s hw

/-- C138: `PopHeapFunc` compares and exchanges elements of the slice it found in the variable, then sets the variable to that slice without
the last element, so that whatever the comparison function assigned to it is lost. On an empty heap it panics before anything else. -/
theorem C138_pop (less : LessA T τ) (s : HS T τ) (hw : s.heap.WF s.mem) :
    (s.heap.len = 0 → popHeapFuncA less s = .panic s) ∧
    ∀ n, s.heap.len = n + 1 → ∃ r, HeapRuns less s.heap (2 * Nat.log2 n) s (fun _ _ => True) r ∧ popHeapFuncA less s = cutTo s.heap n r :=
  ⟨popHeapFuncA_empty s, fun n hn => popHeapFuncA_runs s hw n hn⟩

/-- C138: `RemoveHeapFunc` likewise, for every index; it panics before anything else if there is no such element. -/
theorem C138_remove (less : LessA T τ) (i : Int) (s : HS T τ) (hw : s.heap.WF s.mem) :
    (¬ (0 ≤ i ∧ i < s.heap.len) → removeHeapFuncA i less s = .panic s) ∧
    (0 ≤ i ∧ i < s.heap.len → ∃ r, HeapRuns less s.heap (2 * Nat.log2 (s.heap.len - 1)) s (fun _ _ => True) r ∧
      removeHeapFuncA i less s = cutTo s.heap (s.heap.len - 1) r) := by
  refine ⟨removeHeapFuncA_range s i, fun hi => ?_⟩
  obtain ⟨k, rfl⟩ : ∃ k : Nat, i = k := ⟨i.toNat, by omega⟩
  exact removeHeapFuncA_runs s hw k (s.heap.len - 1) (by omega) (by omega)

/-- C138: `IsHeapFunc` asks `less(parent, child)` for each child in order, on the elements as they are at that moment, until one answer is not true; it writes nothing itself. -/
theorem C138_isHeap (less : LessA T τ) (a : Sl) (s : HS T τ) :
    match isHeapFuncA a less s with
    | .ok true s' => AskedPairs less a 1 (max 1 a.len) s s'
    | .ok false s' => ∃ d s1, 1 ≤ d ∧ d < a.len ∧ AskedPairs less a 1 d s s1 ∧ less (s1.mem.cell (a.off + (d - 1) / 2)) (s1.mem.cell (a.off + d)) s1 = .ok false s'
    | .panic s' => ∃ d s1, 1 ≤ d ∧ d < a.len ∧ AskedPairs less a 1 d s s1 ∧ less (s1.mem.cell (a.off + (d - 1) / 2)) (s1.mem.cell (a.off + d)) s1 = .panic s'
    | .diverge => ∃ d s1, 1 ≤ d ∧ d < a.len ∧ AskedPairs less a 1 d s s1 ∧ less (s1.mem.cell (a.off + (d - 1) / 2)) (s1.mem.cell (a.off + d)) s1 = .diverge := by
  have h := isHeapFuncLoopA_asked (less := less) a (a.len - 1) 1 s (Nat.le_refl _) (by omega)
  have e : isHeapFuncLoopA a less (a.len - 1) 1 ((1 - 1) / 2) s = isHeapFuncA a less s := rfl
  rw [e, show 1 + (a.len - 1) = max 1 a.len by omega] at h
  revert h
  cases isHeapFuncA a less s with
  | ok b s' =>
    cases b with
    | true => exact id
    | false => rintro ⟨d, s1, h1, h2, h3⟩; exact ⟨d, s1, h1, by omega, h3⟩
  | panic s' => rintro ⟨d, s1, h1, h2, h3⟩; exact ⟨d, s1, h1, by omega, h3⟩
  | diverge => rintro ⟨d, s1, h1, h2, h3⟩; exact ⟨d, s1, h1, by omega, h3⟩

/-- C138: if every call of the comparison function ends without panic, so does every heap function on a slice that has the element asked for. -/
theorem C138_ends [GoZero T] (grow : Nat → Nat → Nat) (less : LessA T τ) (hl : ∀ x y s, ∃ b s', less x y s = .ok b s') (a : Sl) (v : T) (i : Int)
    (s : HS T τ) (hw : s.heap.WF s.mem) :
    (∃ s', makeHeapFuncA a less s = .ok () s') ∧ (∃ b s', isHeapFuncA a less s = .ok b s') ∧ (∃ s', pushHeapFuncA grow v less s = .ok () s') ∧
    (s.heap.len ≠ 0 → ∃ r s', popHeapFuncA less s = .ok r s') ∧ (0 ≤ i ∧ i < s.heap.len → ∃ r s', removeHeapFuncA i less s = .ok r s') := by
  have runs : ∀ {α : Type} {a : Sl} {b : Nat} {s : HS T τ} {Q : α → HS T τ → Prop} {r : Res (HS T τ) α}, HeapRuns less a b s Q r → ∃ v s', r = .ok v s' := by
    intro α a b s Q r h
    cases r with
    | ok v s' => exact ⟨v, s', rfl⟩
    | panic s' => obtain ⟨_, s1, i, j, _, _, _, _, e⟩ := h; obtain ⟨b, s2, e'⟩ := hl _ _ s1; rw [e'] at e; cases e
    | diverge => obtain ⟨_, s1, i, j, _, _, _, _, e⟩ := h; obtain ⟨b, s2, e'⟩ := hl _ _ s1; rw [e'] at e; cases e
  refine ⟨?_, ?_, ?_, ?_, ?_⟩
  · obtain ⟨_, s', e⟩ := runs (C138_make less a s); exact ⟨s', e⟩
  · have h := C138_isHeap less a s
    cases e : isHeapFuncA a less s with
    | ok b s' => exact ⟨b, s', rfl⟩
    | panic s' => rw [e] at h; obtain ⟨_, s1, _, _, _, e1⟩ := h; obtain ⟨b, s2, e'⟩ := hl _ _ s1; rw [e'] at e1; cases e1
    | diverge => rw [e] at h; obtain ⟨_, s1, _, _, _, e1⟩ := h; obtain ⟨b, s2, e'⟩ := hl _ _ s1; rw [e'] at e1; cases e1
  · obtain ⟨m1, h1, _, h⟩ := C138_push grow less v s hw
    obtain ⟨_, s', e⟩ := runs h; exact ⟨s', e⟩
  · intro hn
    obtain ⟨r, h, e⟩ := (C138_pop less s hw).2 (s.heap.len - 1) (by omega)
    obtain ⟨_, s', rfl⟩ := runs h
    exact ⟨_, _, e⟩
  · intro hi
    obtain ⟨r, h, e⟩ := (C138_remove less i s hw).2 hi
    obtain ⟨_, s', rfl⟩ := runs h
    exact ⟨_, _, e⟩

/-- C138: a cell outside the slice that the comparison function does not change is not changed by `PopHeapFunc`, `RemoveHeapFunc` or `MakeHeapFunc`. -/
theorem C138_outside (less : LessA T τ) (k : Nat) (hl : ∀ x y s b s', less x y s = .ok b s' → s'.mem.cell k = s.mem.cell k) (a : Sl) (i : Int)
    (s s' : HS T τ) (r : T) (hw : s.heap.WF s.mem) :
    (k < a.off ∨ a.off + a.len ≤ k → makeHeapFuncA a less s = .ok () s' → s'.mem.cell k = s.mem.cell k) ∧
    (k < s.heap.off ∨ s.heap.off + s.heap.len ≤ k → popHeapFuncA less s = .ok r s' ∨ removeHeapFuncA i less s = .ok r s' →
      s'.mem.cell k = s.mem.cell k) := by
  have keep : ∀ {a : Sl} {n : Nat} {s' : HS T τ}, k < a.off ∨ a.off + a.len ≤ k → Acts less a n s s' → s'.mem.cell k = s.mem.cell k := by
    intro a n s' hk h
    exact h.keeps (I := fun t => t.mem.cell k = s.mem.cell k) (fun x y t b t' ht e => (hl x y t b t' e).trans ht)
      (fun i j t hi hj ht => (exchange_out a i j hi hj t k hk).trans ht) rfl
  have cut : ∀ {n : Nat} {b : Nat} {r0 : Res (HS T τ) Unit}, k < s.heap.off ∨ s.heap.off + s.heap.len ≤ k →
      HeapRuns less s.heap b s (fun _ _ => True) r0 → cutTo s.heap n r0 = .ok r s' → s'.mem.cell k = s.mem.cell k := by
    intro n b r0 hk h e
    cases r0 with
    | ok u s1 => obtain ⟨_, n, _, h⟩ := h; cases e; exact keep (s' := s1) hk h
    | panic s1 => cases e
    | diverge => cases e
  refine ⟨fun hk e => ?_, fun hk e => ?_⟩
  · have h := C138_make less a s
    rw [e] at h
    obtain ⟨_, n, _, h⟩ := h
    exact keep hk h
  · rcases e with e | e
    · by_cases hn : s.heap.len = 0
      · rw [(C138_pop less s hw).1 hn] at e; cases e
      · obtain ⟨r0, h, e1⟩ := (C138_pop less s hw).2 (s.heap.len - 1) (by omega)
        exact cut hk h (e1.symm.trans e)
    · by_cases hi : 0 ≤ i ∧ i < s.heap.len
      · obtain ⟨r0, h, e1⟩ := (C138_remove less i s hw).2 hi
        exact cut hk h (e1.symm.trans e)
      · rw [(C138_remove less i s hw).1 hi] at e; cases e

/-- C138: a comparison function that itself only rearranges the slice loses and invents no element: what `PopHeapFunc` or `RemoveHeapFunc` returns and what it leaves are the
elements that were there. -/
theorem C138_elements (less : LessA T τ) (i : Int) (s s' : HS T τ) (r : T) (hw : s.heap.WF s.mem)
    (hl : ∀ x y t b t', less x y t = .ok b t' → (s.heap.read t'.mem).Perm (s.heap.read t.mem))
    (h : popHeapFuncA less s = .ok r s' ∨ removeHeapFuncA i less s = .ok r s') :
    (s'.heap.read s'.mem ++ [r]).Perm (s.heap.read s.mem) := by
  have cut : ∀ {b : Nat} {r0 : Res (HS T τ) Unit}, s.heap.len ≠ 0 →
      HeapRuns less s.heap b s (fun _ _ => True) r0 → cutTo s.heap (s.heap.len - 1) r0 = .ok r s' → (s'.heap.read s'.mem ++ [r]).Perm (s.heap.read s.mem) := by
    intro b r0 hn h e
    cases r0 with
    | ok u s1 =>
      obtain ⟨_, n, _, h0⟩ := h; cases e
      have hp := h0.keeps (I := fun t => (s.heap.read t.mem).Perm (s.heap.read s.mem)) (fun x y t b t' ht e => (hl x y t b t' e).trans ht)
        (fun i j t hi hj ht => (exchange_perm s.heap i j hi hj t).trans ht) (.refl _)
      have e1 : s.heap.read s1.mem = Sl.read s1.mem { s.heap with len := s.heap.len - 1 } ++ [s1.mem.cell (s.heap.off + (s.heap.len - 1))] := by
        obtain ⟨k, hk⟩ : ∃ k, s.heap.len = k + 1 := ⟨s.heap.len - 1, by omega⟩
        simp only [Sl.read, hk, Nat.add_sub_cancel, List.range_succ, List.map_append, List.map_cons, List.map_nil]
      exact e1 ▸ hp
    | panic s1 => cases e
    | diverge => cases e
  rcases h with e | e
  · by_cases hn : s.heap.len = 0
    · rw [(C138_pop less s hw).1 hn] at e; cases e
    · obtain ⟨r0, h, e1⟩ := (C138_pop less s hw).2 (s.heap.len - 1) (by omega)
      exact cut hn h (e1.symm.trans e)
  · by_cases hi : 0 ≤ i ∧ i < s.heap.len
    · obtain ⟨r0, h, e1⟩ := (C138_remove less i s hw).2 hi
      exact cut (by omega) h (e1.symm.trans e)
    · rw [(C138_remove less i s hw).1 hi] at e; cases e

/-- C138: a comparison function that does not reach the heap gives the functions of `Model/HeapMem.lean`, of which C94 to C100 speak. -/
theorem C138_same [GoZero T] (grow : Nat → Nat → Nat) (less : LessM T τ) (a : Sl) (v : T) (i : Int) :
    makeHeapFuncA a (fun x y => HS.call (less x y)) = makeHeapFuncM a less ∧
    pushHeapFuncA grow v (fun x y => HS.call (less x y)) = pushHeapFuncM grow v less ∧
    popHeapFuncA (fun x y => HS.call (less x y)) = popHeapFuncM less ∧
    removeHeapFuncA i (fun x y => HS.call (less x y)) = removeHeapFuncM i less := by
  show makeHeapFuncA a less.wide = _ ∧ pushHeapFuncA grow v less.wide = _ ∧ popHeapFuncA less.wide = _ ∧ removeHeapFuncA i less.wide = _
  simp only [makeHeapFuncA, makeHeapFuncM, makeHeapFuncLoopA_wide, pushHeapFuncA, pushHeapFuncM, popHeapFuncA, popHeapFuncM, removeHeapFuncA,
    removeHeapFuncM, removeHeapFuncSiftA, removeHeapFuncSiftM, heapUpFuncA_wide, heapDownFuncA_wide, and_self]

/-! ## Concrete cases -/

/-- Memory with the given first cells. -/
def reachMem (xs : List Nat) : Mem Nat := ⟨fun k => xs.getD k 0, xs.length⟩

/-- A comparison function that pushes `7` onto the heap variable each time it is called. -/
def pushingLess : LessA Nat Unit := fun x y => do
  let h ← HS.recv
  let h ← HS.on (h.append (fun _ n => n) [7])
  HS.assign h
  pure (decide (x < y))

/-- What a client sees: what was returned, and the elements in the variable. -/
def anySeen {α : Type} : Res (HS Nat Unit) α → Option (α × List Nat)
  | .ok v s => some (v, s.heap.read s.mem)
  | _ => none

/-- The pushes made during `PopHeapFunc` are lost, those made during `PushHeapFunc` stay. -/
example : anySeen (popHeapFuncA pushingLess ⟨reachMem [1, 2, 3], (), ⟨0, 3, 3⟩⟩) = some (1, [2, 3]) ∧
    anySeen (pushHeapFuncA (fun _ n => n) 1 pushingLess ⟨reachMem [2, 3, 4], (), ⟨0, 3, 3⟩⟩) = some ((), [2, 3, 4, 1, 7, 7]) := by decide +kernel

/-- A comparison function that, the first time, pops from the heap variable. -/
def poppingLess : LessA Nat (Option Nat) := fun x y s =>
  match s.st with
  | some _ => .ok (decide (x < y)) s
  | none =>
    match popHeapFuncA (fun x y => pure (decide (x < y))) s with
    | .ok r s => .ok (decide (x < y)) { s with st := some r }
    | .panic s => .panic s
    | .diverge => .diverge

/-- What both the outer and the inner `PopHeapFunc` returned, and what is left. -/
def bothSeen : Res (HS Nat (Option Nat)) Nat → Option (Nat × Option Nat × List Nat)
  | .ok v s => some (v, s.st, s.heap.read s.mem)
  | _ => none

/-- Popping inside the comparison function: both pops return the same element, `5`, which is not even the least, and `1` is still there. -/
example : bothSeen (popHeapFuncA poppingLess ⟨reachMem [1, 2, 3, 4, 5], none, ⟨0, 5, 5⟩⟩) = some (5, some 5, [1, 2, 3, 4]) := by decide +kernel

/-- The hypotheses of `C138_ends` and `C138_elements` are met by comparison functions that do reach the heap. -/
example : (∀ x y s, ∃ b s', pushingLess x y s = .ok b s') ∧
    ∃ less : LessA Nat Unit, less ≠ (fun x y => pure (decide (x < y))) ∧
      ∀ x y t b t', less x y t = .ok b t' → (Sl.read t'.mem ⟨0, 2, 2⟩).Perm (Sl.read t.mem ⟨0, 2, 2⟩) := by
  refine ⟨?_, fun x y s => .ok (decide (x < y)) (s.exchange ⟨0, 2, 2⟩ 0 1), ?_, ?_⟩
  · intro x y s
    by_cases hc : s.heap.len + 1 ≤ s.heap.cap
    · exact ⟨_, _, by simp only [pushingLess, GoM.bind_def, HS.recv, HS.on, HS.assign, Sl.append, List.length_cons, List.length_nil, Nat.zero_add, if_pos hc]; rfl⟩
    · exact ⟨_, _, by simp only [pushingLess, GoM.bind_def, HS.recv, HS.on, HS.assign, Sl.append, List.length_cons, List.length_nil, Nat.zero_add, if_neg hc]; rfl⟩
  · intro h
    have := congrFun (congrFun (congrFun h 0) 1) ⟨reachMem [1, 2], (), Sl.empty⟩
    simp only [GoM.pure_apply, Res.ok.injEq, HS.exchange] at this
    have := congrArg (fun s : HS Nat Unit => s.mem.cell 0) this.2
    simp [reachMem] at this
  · intro x y t b t' e
    cases e
    exact exchange_perm _ 0 1 (by decide) (by decide) t

end Stl4go
