import Verif.Proofs.PQSlots
import Verif.Proofs.Sort
import Verif.Props.Transform
/-!
# Properties C94-C100: heaps and priority queues on memory

The comparison function `less` is Go code with a state of its own; unless a theorem says otherwise it may answer anything, panic or hang.
`Rearranged m m' h`: the elements of `h` changed places at most, no other cell changed. `Pushed`: see `Spec/HeapMem.lean`.
-/
namespace Stl4go
variable {T τ : Type}

/-- For the examples: the result (none for a panic), the first `n` cells and the variable `*heap`. -/
def HS.shown {α : Type} (n : Nat) : Res (HS T τ) α → Option (Option α × List T × Sl)
  | .ok a s => some (some a, (List.range n).map s.mem.cell, s.heap)
  | .panic s => some (none, (List.range n).map s.mem.cell, s.heap)
  | .diverge => none

/-! ## C94: where heap functions write -/

/-- C94: `MakeHeapFunc` moves the elements of its slice and writes nothing else. -/
theorem C94_make (less : LessM T τ) (a : Sl) (s s' : HS T τ) (h : makeHeapFuncM a less s = .ok () s') : Rearranged s.mem s'.mem a := by
  have := makeHeapFuncM_any less a s
  rw [h] at this
  exact this.1

/-- C94: `PushHeapFunc` adds the element within the array if it has room, else in a new array. -/
theorem C94_push [GoZero T] (grow : Nat → Nat → Nat) (less : LessM T τ) (v : T) (s s' : HS T τ) (hw : s.heap.WF s.mem)
    (h : pushHeapFuncM grow v less s = .ok () s') : Pushed s.mem s.heap v s'.mem s'.heap := by
  have := pushHeapFuncM_any grow v less s hw
  rw [h] at this
  exact this

/-- C94: `PopHeapFunc` returns what was first, shortens the slice by one, and writes only elements of the old slice, the last of which is
the one returned. -/
theorem C94_pop (less : LessM T τ) (s s' : HS T τ) (r : T) (hw : s.heap.WF s.mem) (h : popHeapFuncM less s = .ok r s') :
    (s.heap.read s.mem).head? = some r ∧ s'.heap = { s.heap with len := s.heap.len - 1 } ∧ Rearranged s.mem s'.mem s.heap ∧
      (s.heap.read s'.mem).getLast? = some r := by
  have := popHeapFuncM_any less s hw.1
  rw [h] at this
  obtain ⟨_, h2, h3, h4, h5⟩ := this
  exact ⟨by rw [List.head?_eq_getElem?]; exact h4, h3, h2, by rw [List.getLast?_eq_getElem?, Sl.read_length]; exact h5⟩

/-- C94: `RemoveHeapFunc` returns what was at index `i`; otherwise as `PopHeapFunc`. -/
theorem C94_remove (less : LessM T τ) (i : Int) (s s' : HS T τ) (r : T) (hw : s.heap.WF s.mem) (h : removeHeapFuncM i less s = .ok r s') :
    0 ≤ i ∧ (s.heap.read s.mem)[i.toNat]? = some r ∧ s'.heap = { s.heap with len := s.heap.len - 1 } ∧ Rearranged s.mem s'.mem s.heap ∧
      (s.heap.read s'.mem).getLast? = some r := by
  by_cases hi : 0 ≤ i ∧ i < s.heap.len
  · obtain ⟨n, rfl⟩ : ∃ n : Nat, i = n := ⟨i.toNat, by omega⟩
    have := removeHeapFuncM_any less s hw.1 n (by omega)
    rw [h] at this
    obtain ⟨h2, h3, h4, h5⟩ := this
    exact ⟨by omega, by simpa using h4, h3, h2, by rw [List.getLast?_eq_getElem?, Sl.read_length]; exact h5⟩
  · rw [removeHeapFuncM_out s i hi] at h
    cases h

/-- C94 for the operator forms, whatever `<` does: they always return, except that `Pop` of an empty heap and `Remove` outside the range
panic and then change nothing. -/
theorem C94_ordered [GoZero T] [GoOrd T] (grow : Nat → Nat → Nat) (a : Sl) (v : T) (i : Int) (s : HS T τ) (hw : s.heap.WF s.mem) :
    (∃ s', makeMinHeapM a s = .ok () s' ∧ Rearranged s.mem s'.mem a) ∧
    (∃ s', pushMinHeapM grow v s = .ok () s' ∧ Pushed s.mem s.heap v s'.mem s'.heap) ∧
    (if s.heap.len = 0 then popMinHeapM s = .panic s else
      ∃ r s', popMinHeapM s = .ok r s' ∧ (s.heap.read s.mem).head? = some r ∧ s'.heap = { s.heap with len := s.heap.len - 1 } ∧
        Rearranged s.mem s'.mem s.heap ∧ (s.heap.read s'.mem).getLast? = some r) ∧
    (if i < 0 ∨ s.heap.len ≤ i then removeMinHeapM i s = .panic s else
      ∃ r s', removeMinHeapM i s = .ok r s' ∧ (s.heap.read s.mem)[i.toNat]? = some r ∧ s'.heap = { s.heap with len := s.heap.len - 1 } ∧
        Rearranged s.mem s'.mem s.heap ∧ (s.heap.read s'.mem).getLast? = some r) := by
  have np : ∀ t : τ, ¬ PanicsWith (pureLess GoOrd.lt : LessM T τ) t := by rintro t ⟨x, y, t0, h⟩; cases h
  have nh : ¬ Hangs (pureLess GoOrd.lt : LessM T τ) := by rintro ⟨x, y, t0, h⟩; cases h
  rw [makeMinHeapM_eq, pushMinHeapM_eq, popMinHeapM_eq, removeMinHeapM_eq]
  refine ⟨?_, ?_, ?_, ?_⟩
  · have := makeHeapFuncM_any (pureLess GoOrd.lt) a s
    cases h : makeHeapFuncM a (pureLess GoOrd.lt) s with
    | ok u s' => exact ⟨s', rfl, C94_make _ _ _ _ h⟩
    | panic s' => rw [h] at this; exact (np _ this.2.2).elim
    | diverge => rw [h] at this; exact (nh this).elim
  · have := pushHeapFuncM_any grow v (pureLess GoOrd.lt) s hw
    cases h : pushHeapFuncM grow v (pureLess GoOrd.lt) s with
    | ok u s' => exact ⟨s', rfl, C94_push _ _ _ _ _ hw h⟩
    | panic s' => rw [h] at this; exact (np _ this.2).elim
    | diverge => rw [h] at this; exact (nh this).elim
  · by_cases h0 : s.heap.len = 0
    · rw [if_pos h0]
      exact popHeapFuncM_empty _ _ _ h0
    · rw [if_neg h0]
      have := popHeapFuncM_any (pureLess GoOrd.lt) s hw.1
      cases h : popHeapFuncM (pureLess GoOrd.lt) s with
      | ok r s' => exact ⟨r, s', rfl, C94_pop _ _ _ _ hw h⟩
      | panic s' => rw [h] at this; exact this.elim (fun e => (h0 e.1).elim) (fun e => (np _ e.2.2.2).elim)
      | diverge => rw [h] at this; exact (nh this).elim
  · by_cases h0 : i < 0 ∨ s.heap.len ≤ i
    · rw [if_pos h0]
      exact removeHeapFuncM_out s i (by omega)
    · rw [if_neg h0]
      obtain ⟨n, rfl⟩ : ∃ n : Nat, i = n := ⟨i.toNat, by omega⟩
      have := removeHeapFuncM_any (pureLess GoOrd.lt) s hw.1 n (by omega)
      cases h : removeHeapFuncM n (pureLess GoOrd.lt) s with
      | ok r s' => exact ⟨r, s', rfl, (C94_remove _ _ _ _ _ hw h).2⟩
      | panic s' => rw [h] at this; exact (np _ this.2.2).elim
      | diverge => rw [h] at this; exact (nh this).elim

/-- A heap of four with a spare cell before, after and past its capacity, popped: the popped 1 stays behind in the array. -/
example : HS.shown 7 (popMinHeapM (⟨memOf [90, 1, 3, 2, 7, 91, 92], (), ⟨1, 4, 5⟩⟩ : HS Int Unit))
    = some (some 1, [90, 2, 3, 7, 1, 91, 92], ⟨1, 3, 5⟩) := by decide +kernel

/-! ## C95: a comparison function that panics -/

/-- C95: after a panic in `MakeHeapFunc` the slice still has its elements. -/
theorem C95_make (less : LessM T τ) (a : Sl) (s s' : HS T τ) (h : makeHeapFuncM a less s = .panic s') :
    Rearranged s.mem s'.mem a ∧ PanicsWith less s'.st := by
  have := makeHeapFuncM_any less a s
  rw [h] at this
  exact ⟨this.1, this.2.2⟩

/-- C95: after a panic in `PushHeapFunc` the new element is in the slice all the same. -/
theorem C95_push [GoZero T] (grow : Nat → Nat → Nat) (less : LessM T τ) (v : T) (s s' : HS T τ) (hw : s.heap.WF s.mem)
    (h : pushHeapFuncM grow v less s = .panic s') : Pushed s.mem s.heap v s'.mem s'.heap ∧ PanicsWith less s'.st := by
  have := pushHeapFuncM_any grow v less s hw
  rw [h] at this
  exact this

/-- C95: a panic in `PopHeapFunc` removes nothing; it comes from `less` unless the heap was empty, and then nothing changed. -/
theorem C95_pop (less : LessM T τ) (s s' : HS T τ) (hw : s.heap.WF s.mem) (h : popHeapFuncM less s = .panic s') :
    s'.heap = s.heap ∧ Rearranged s.mem s'.mem s.heap ∧ (if s.heap.len = 0 then s' = s else PanicsWith less s'.st) := by
  have := popHeapFuncM_any less s hw.1
  rw [h] at this
  rcases this with ⟨h0, rfl⟩ | ⟨h0, h1, h2, h3⟩
  · exact ⟨rfl, ⟨⟨rfl, fun _ _ => rfl⟩, .refl _⟩, by rw [if_pos h0]⟩
  · exact ⟨h2, h1, by rw [if_neg (by omega)]; exact h3⟩

/-- C95: the same for `RemoveHeapFunc`, where an index out of range changes nothing. -/
theorem C95_remove (less : LessM T τ) (i : Int) (s s' : HS T τ) (hw : s.heap.WF s.mem) (h : removeHeapFuncM i less s = .panic s') :
    s'.heap = s.heap ∧ Rearranged s.mem s'.mem s.heap ∧ (if i < 0 ∨ s.heap.len ≤ i then s' = s else PanicsWith less s'.st) := by
  by_cases hi : 0 ≤ i ∧ i < s.heap.len
  · obtain ⟨n, rfl⟩ : ∃ n : Nat, i = n := ⟨i.toNat, by omega⟩
    have := removeHeapFuncM_any less s hw.1 n (by omega)
    rw [h] at this
    exact ⟨this.2.1, this.1, by rw [if_neg (by omega)]; exact this.2.2⟩
  · rw [removeHeapFuncM_out s i hi] at h
    cases h
    exact ⟨rfl, ⟨⟨rfl, fun _ _ => rfl⟩, .refl _⟩, by rw [if_pos (by omega)]⟩

/-- C95: the functions themselves always come to an end: they hang only in a call of `less`. -/
theorem C95_ends [GoZero T] (grow : Nat → Nat → Nat) (less : LessM T τ) (a : Sl) (v : T) (i : Int) (s : HS T τ) (hw : s.heap.WF s.mem)
    (h : makeHeapFuncM a less s = .diverge ∨ pushHeapFuncM grow v less s = .diverge ∨ popHeapFuncM less s = .diverge ∨
      removeHeapFuncM i less s = .diverge) : Hangs less := by
  rcases h with h | h | h | h
  · have := makeHeapFuncM_any less a s
    rw [h] at this; exact this
  · have := pushHeapFuncM_any grow v less s hw
    rw [h] at this; exact this
  · have := popHeapFuncM_any less s hw.1
    rw [h] at this; exact this
  · by_cases hi : 0 ≤ i ∧ i < s.heap.len
    · obtain ⟨n, rfl⟩ : ∃ n : Nat, i = n := ⟨i.toNat, by omega⟩
      have := removeHeapFuncM_any less s hw.1 n (by omega)
      rw [h] at this; exact this
    · rw [removeHeapFuncM_out s i hi] at h
      cases h

/-- A comparison function that panics in its `n`th call. -/
def panicAt (n : Nat) : LessM Int Nat := fun x y c => if c + 1 = n then .panic (c + 1) else .ok (decide (x < y)) (c + 1)

/-- It panics in the middle of `PopHeapFunc`: elements have changed places, all eight are there. -/
example : HS.shown 8 (popHeapFuncM (panicAt 3) ⟨memOf [1, 3, 2, 7, 4, 5, 6, 8], 0, ⟨0, 8, 8⟩⟩) = some (none, [2, 3, 8, 7, 4, 5, 6, 1], ⟨0, 8, 8⟩) := by
  decide +kernel

/-- It panics in `PushHeapFunc` on a full array: the queue has the new array with the new element. -/
example : HS.shown 7 (pushHeapFuncM (fun _ n => 2 * n) 0 (panicAt 2) ⟨memOf [1, 3, 2], 0, ⟨0, 3, 3⟩⟩)
    = some (none, [1, 3, 2, 1, 0, 2, 3], ⟨3, 4, 8⟩) := by decide +kernel

/-! ## C96: a comparison function with side effects -/

/-- C96: if `less` always returns and its answers are those of one strict weak order, whatever else it does, then all four functions return,
and do what they are for. -/
theorem C96_effects [GoZero T] (grow : Nat → Nat → Nat) (less : LessM T τ) (l : T → T → Bool) (ha : Answers less l) (hl : StrictWeak l)
    (s : HS T τ) (hw : s.heap.WF s.mem) :
    (∀ a : Sl, ∃ s', makeHeapFuncM a less s = .ok () s' ∧ Rearranged s.mem s'.mem a ∧ IsHeap l (a.read s'.mem)) ∧
    (IsHeap l (s.heap.read s.mem) →
      (∀ v, ∃ s', pushHeapFuncM grow v less s = .ok () s' ∧ Pushed s.mem s.heap v s'.mem s'.heap ∧ IsHeap l (s'.heap.read s'.mem)) ∧
      (s.heap.len ≠ 0 → ∃ r s', popHeapFuncM less s = .ok r s' ∧ (∀ x ∈ s.heap.read s.mem, l x r = false) ∧
        (r :: s'.heap.read s'.mem).Perm (s.heap.read s.mem) ∧ IsHeap l (s'.heap.read s'.mem)) ∧
      (∀ (i : Nat) (hi : i < (s.heap.read s.mem).length), ∃ s', removeHeapFuncM (i : Int) less s = .ok (s.heap.read s.mem)[i] s' ∧
        ((s.heap.read s.mem)[i] :: s'.heap.read s'.mem).Perm (s.heap.read s.mem) ∧ IsHeap l (s'.heap.read s'.mem))) := by
  refine ⟨fun a => ?_, fun H => ⟨fun v => ?_, fun h0 => ?_, fun i hi => ?_⟩⟩
  · obtain ⟨ys, e1, e2, e3⟩ := makeHeapFunc_spec hl (a.read s.mem)
    obtain ⟨hly, t', e⟩ := makeHeapFuncM_refines ha a s e1
    refine ⟨_, e, .of_write hly e2, ?_⟩
    simp only
    rw [Sl.read_write_self _ _ _ hly]; exact e3
  · obtain ⟨ys, e1, e2, e3⟩ := pushHeapFunc_spec hl _ v H
    obtain ⟨h', m', t', _, hly, e⟩ := pushHeapFuncM_refines ha grow v s hw e1
    refine ⟨_, e, C94_push grow less v s _ hw e, ?_⟩
    simp only
    rw [Sl.read_write_self _ _ _ hly]; exact e3
  · obtain ⟨ys, e1, e2, e3⟩ := popHeapFunc_spec hl _ (by simp; omega) H
    obtain ⟨hly, t', e⟩ := popHeapFuncM_refines ha s hw.1 e1
    have hr : Sl.read (s.mem.write s.heap.off (ys ++ [(s.heap.read s.mem)[0]'(by simp; omega)])) { s.heap with len := ys.length } = ys := by
      rw [Sl.read_take _ _ _ (by omega), Sl.read_write_self _ _ _ (by simp; omega), List.take_left]
    refine ⟨_, _, e, H.head_min hl _, ?_, ?_⟩
    · simp only; rw [hr]; exact e2
    · simp only; rw [hr]; exact e3
  · obtain ⟨ys, e1, e2, e3⟩ := removeHeapFunc_spec hl _ i hi H
    obtain ⟨hly, t', e⟩ := removeHeapFuncM_refines ha s hw.1 i (by simpa using hi) e1
    have hr : Sl.read (s.mem.write s.heap.off (ys ++ [(s.heap.read s.mem)[i]])) { s.heap with len := ys.length } = ys := by
      rw [Sl.read_take _ _ _ (by omega), Sl.read_write_self _ _ _ (by simp; omega), List.take_left]
    refine ⟨_, e, ?_, ?_⟩
    · simp only; rw [hr]; exact e2
    · simp only; rw [hr]; exact e3

/-- A comparison function that counts its calls. -/
def countLess : LessM Int Nat := fun x y c => .ok (decide (x < y)) (c + 1)

example : Answers countLess (fun x y => decide (x < y)) := fun _ _ c => ⟨c + 1, rfl⟩

example : HS.shown 5 (popHeapFuncM countLess ⟨memOf [1, 3, 2, 7, 4], 0, ⟨0, 5, 5⟩⟩) = some (some 1, [2, 3, 4, 7, 1], ⟨0, 4, 5⟩) := by
  decide +kernel

/-! ## C97: removed elements -/

/-- C97 in full: as for `Vector` (C44), the slots a queue does not use are zero. -/
def C97_statement : Prop := ∀ (T : Type) [GoZero T] [GoOrd T] [LawfulGoOrd T] (grow : Nat → Nat → Nat) (m : Mem T) (h : List (Nat × PQWOp T)) (i : Nat),
  PQWOp.Orders h → Clean ((PQWorld.init m).run grow h).2.mem (((PQWorld.init m).run grow h).2.vars i)

/-- C97 is false of the code: after `NewPriorityQueue(); Push(5); Pop()` the 5 is still in the array. -/
theorem C97_counterexample : ¬ C97_statement := by
  intro h
  have := h Int (fun _ n => n) (memOf []) [(0, .new), (0, .op (.push 5)), (0, .op .pop)] 0 (by intro i less hm; simp at hm) 0
    (by decide +kernel) (by decide +kernel)
  revert this
  decide +kernel

/-- C97, what holds: every slot of a queue's array is zero or a value the history put into a queue. Missing: popped values are kept, see
`C94_pop` for where. -/
theorem C97_slots_partial [GoZero T] [GoOrd T] [LawfulGoOrd T] (grow : Nat → Nat → Nat) (m : Mem T) (h : List (Nat × PQWOp T)) (ho : PQWOp.Orders h)
    (i k : Nat) (hk : (((PQWorld.init m).run grow h).2.vars i).Has k) :
    ((PQWorld.init m).run grow h).2.mem.cell k = GoZero.zero ∨ ((PQWorld.init m).run grow h).2.mem.cell k ∈ PQWOp.given h := by
  obtain ⟨_, _, _, h3⟩ := PQWorld.run_inv (P := fun x => x = GoZero.zero ∨ x ∈ PQWOp.given h) (w := PQWorld.init m) (s := fun _ => .zero) grow (.inl rfl) h
    (queues_init m) (fun _ => rfl) ho (fun _ hx => .inr hx) (fun _ k hk => by simp [Sl.Has, PQWorld.init, Sl.empty] at hk)
  exact h3 i k hk

/-- C97: exactly what every queue keeps, after every history on any number of queues: the elements it returned or was cleared of, in the slots that no
`Push` has taken since, and zeros. `s` holds the elements in the order of the array, `e` the unused slots. -/
theorem C97_exact [GoZero T] [GoOrd T] [LawfulGoOrd T] (grow : Nat → Nat → Nat) (m : Mem T) (h : List (Nat × PQWOp T)) (ho : PQWOp.Orders h) :
    ∃ s e, PQArrRun grow (fun _ => .zero) (fun _ => []) h ((PQWorld.init m).run grow h).1 s e ∧
      ∀ i, (((PQWorld.init m).run grow h).2.vars i).read ((PQWorld.init m).run grow h).2.mem = (s i).elems ∧
        (((PQWorld.init m).run grow h).2.vars i).unused ((PQWorld.init m).run grow h).2.mem = e i := by
  obtain ⟨s, e, h1, h2⟩ := PQWorld.run_unused grow h (queues_init m) (s := fun _ => .zero) (w := PQWorld.init m) (fun _ => rfl) ho
  exact ⟨s, e, h1, h2⟩

/-- Three popped values stay; the next push takes the slot of the last one. -/
example : let w := ((PQWorld.init (memOf [])).run (fun _ n => 2 * n)
      [(0, .newOf [4, 2, 9]), (0, .op .pop), (0, .op .pop), (0, .op .pop), (0, .op (.push 7)), (1, .new), (1, .op (.push 5)), (1, .op .clear)]).2
    (w.vars 0).read w.mem = [7] ∧ (w.vars 0).unused w.mem = [4, 2] ∧ (w.vars 1).read w.mem = [] ∧ (w.vars 1).unused w.mem = ([5, 0] : List Int) := by
  decide +kernel

/-! ## C98: draining sorts the array -/

/-- C98: `MakeHeapFunc` on a slice followed by one `PopHeapFunc` per element returns the elements in ascending order and leaves the slice
sorted in descending order; nothing else is written, nothing allocated. -/
theorem C98_heapsort (less : LessM T τ) (l : T → T → Bool) (ha : Answers less l) (hl : StrictWeak l) (a : Sl) (m : Mem T) (t : τ)
    (hw : a.WF m) (hp : Sl) :
    ∃ xs m' t', (do makeHeapFuncM a less; HS.assign a; popTimes less a.len : GoM (HS T τ) (List T)) ⟨m, t, hp⟩
        = .ok xs ⟨m', t', { a with len := 0 }⟩ ∧
      xs.Perm (a.read m) ∧ SortedBy l xs ∧ a.read m' = xs.reverse ∧ OnlyIn m m' a := by
  obtain ⟨ys, e1, e2, e3⟩ := makeHeapFunc_spec hl (a.read m)
  obtain ⟨hly, t1, e⟩ := makeHeapFuncM_refines ha a (⟨m, t, hp⟩ : HS T τ) e1
  simp only at e
  have hr : a.read (m.write a.off ys) = ys ++ [] := by rw [Sl.read_write_self _ _ _ hly, List.append_nil]
  obtain ⟨xs, m', t', g1, g2, g3, g4, g5⟩ := popTimes_sorts ha hl a hw.1 a.len (m.write a.off ys) t1 ys [] hly hr e3 (by simp) (by simp)
  simp only [List.append_nil] at g2 g3
  refine ⟨xs, m', t', ?_, g4.trans e2, ?_, g2, ?_⟩
  · simp only [GoM.bind_def, e, HS.assign]
    exact g1
  · rw [sortedBy_pairwise]
    exact List.pairwise_reverse.1 g3
  · exact OnlyIn.trans (Rearranged.of_write hly e2).1 g5

/-- C98: `NewPriorityQueueOn(slice)` and one `Pop` per element leave the caller's slice sorted in descending order. -/
theorem C98_queue [ord : GoOrd T] [LawfulGoOrd T] (a : Sl) (m : Mem T) (t : τ) (hw : a.WF m) (hp : Sl) :
    ∃ xs m' t', (do PQM.newOn a; PQM.popTimes (.ordered ord) a.len : GoM (HS T τ) (List T)) ⟨m, t, hp⟩
        = .ok xs ⟨m', t', { a with len := 0 }⟩ ∧
      xs.Perm (a.read m) ∧ SortedBy GoOrd.lt xs ∧ a.read m' = xs.reverse ∧ OnlyIn m m' a := by
  have hpt : ∀ n, PQM.popTimes (.ordered ord) n = popTimes (τ := τ) (pureLess GoOrd.lt) n := by
    intro n
    induction n with
    | zero => rfl
    | succ n ih => simp only [PQM.popTimes, popTimes, ih, PQM.pop, popMinHeapM_eq]
  rw [hpt]
  obtain ⟨xs, m', t', e, r⟩ := C98_heapsort (pureLess GoOrd.lt) GoOrd.lt (answers_pure (T := T) (τ := τ) GoOrd.lt) LawfulGoOrd.weak a m t hw hp
  refine ⟨xs, m', t', ?_, r⟩
  rw [← e]
  simp only [PQM.newOn, makeMinHeapM_eq, GoM.bind_assoc']

example : HS.shown 7 ((do PQM.newOn ⟨1, 5, 6⟩; PQM.popTimes (.ordered inferInstance) 5 : GoM (HS Int Unit) (List Int))
      ⟨memOf [90, 4, 1, 3, 1, 5, 91], (), Sl.empty⟩) = some (some [1, 1, 3, 4, 5], [90, 5, 4, 3, 1, 1, 91], ⟨1, 0, 6⟩) := by decide +kernel

/-! ## C99: several queues -/

/-- C99: every history on any number of queues, made by whatever constructor, gives the observations of independent multisets with
extract-min; a zero `PriorityQueue` is empty and panics on `Push`. -/
theorem C99_history [GoZero T] [GoOrd T] [LawfulGoOrd T] (grow : Nat → Nat → Nat) (m : Mem T) (h : List (Nat × PQWOp T)) (ho : PQWOp.Orders h) :
    ∃ s, PQWRun (fun _ => .zero) h ((PQWorld.init m).run grow h).1 s := by
  obtain ⟨s, h1, _⟩ := PQWorld.run_inv (P := fun _ => True) (w := PQWorld.init m) (s := fun _ => .zero) grow trivial h
    (queues_init m) (fun _ => rfl) ho (fun _ _ => trivial) (fun _ _ _ => trivial)
  exact ⟨s, h1⟩

/-- C99: no history changes a cell that the rest of the program had before it. -/
theorem C99_rest [GoZero T] [GoOrd T] [LawfulGoOrd T] (grow : Nat → Nat → Nat) (m : Mem T) (h : List (Nat × PQWOp T)) (ho : PQWOp.Orders h)
    (k : Nat) (hk : k < m.top) : ((PQWorld.init m).run grow h).2.mem.cell k = m.cell k := by
  obtain ⟨s, _, h2, _⟩ := PQWorld.run_inv (P := fun _ => True) (w := PQWorld.init m) (s := fun _ => .zero) grow trivial h
    (queues_init m) (fun _ => rfl) ho (fun _ _ => trivial) (fun _ _ _ => trivial)
  exact (h2.others k hk).2.1

/-- Two queues with opposite orders and a zero one, interleaved. -/
def queueDemo : List (Nat × PQWOp Int) :=
  [(0, .newOf [4, 2, 9]), (1, .newFunc (fun x y => decide (y < x))), (2, .op (.push 1)), (1, .op (.push 5)), (0, .op (.push 1)), (1, .op (.push 8)),
   (0, .op .pop), (1, .op .pop), (0, .op .top), (1, .op .len), (1, .op .clear), (1, .op .pop), (0, .op .pop), (2, .op .len)]

example : ((PQWorld.init (memOf [])).run (fun _ n => 2 * n) queueDemo).1
    = [.unit, .unit, .panicked, .unit, .unit, .unit, .val 1, .val 8, .val 2, .num 1, .unit, .panicked, .val 2, .num 0] := by decide +kernel

/-! ## C100: the array of `NewPriorityQueueOn` -/

/-- C100 in full: a queue made on a slice writes, of all the memory there was, only the elements of the slice. -/
def C100_statement : Prop := ∀ (T : Type) [GoZero T] [ord : GoOrd T] [LawfulGoOrd T] (grow : Nat → Nat → Nat) (a : Sl) (s s' : HS T Unit) (ops : List (PQOp T)),
  a.WF s.mem → PQM.newOn a s = .ok () s' → ∀ k, k < s.mem.top → (k < a.off ∨ a.off + a.len ≤ k) →
    (PQM.execAll grow (.ordered ord) s' ops).2.mem.cell k = s.mem.cell k

/-- C100 is false of the code: `NewPriorityQueueOn(a[:1]).Push(3)` overwrites `a[1]`. -/
theorem C100_counterexample : ¬ C100_statement := by
  intro h
  have := h Int (fun _ n => n) ⟨0, 1, 2⟩ ⟨memOf [5, 7], (), Sl.empty⟩ ⟨memOf [5, 7], (), ⟨0, 1, 2⟩⟩ [.push 3] ⟨by decide, by decide⟩ rfl 1 (by decide +kernel) (by decide +kernel)
  revert this
  decide +kernel

/-- C100, what holds: it writes only within the capacity of the slice, and behaves as a multiset that starts with the elements of the slice.
Missing: the elements of the array between length and capacity. -/
theorem C100_window_partial [GoZero T] [ord : GoOrd T] [LawfulGoOrd T] (grow : Nat → Nat → Nat) (a : Sl) (s : HS T τ) (ops : List (PQOp T))
    (hw : a.WF s.mem) :
    ∃ s' start last, PQM.newOn a s = .ok () s' ∧ start.Perm (a.read s.mem) ∧
      PQRun GoOrd.lt start ops (PQM.execAll grow (.ordered ord) s' ops).1 last ∧
      ∀ k, k < s.mem.top → (k < a.off ∨ a.off + a.cap ≤ k) → (PQM.execAll grow (.ordered ord) s' ops).2.mem.cell k = s.mem.cell k := by
  obtain ⟨m, t, hp⟩ := s
  simp only at hw ⊢
  obtain ⟨ys, e1, e2, e3⟩ := makeHeapFunc_spec (less := GoOrd.lt) (LawfulGoOrd.weak (T := T)) (a.read m)
  obtain ⟨hly, t1, e⟩ := makeHeapFuncM_refines (answers_pure (τ := τ) GoOrd.lt) a (⟨m, t, hp⟩ : HS T τ) e1
  have hnew : PQM.newOn a ⟨m, t, hp⟩ = .ok () ⟨m.write a.off ys, t1, a⟩ := by
    simp only [PQM.newOn, GoM.bind_def, makeMinHeapM_eq, e, HS.assign]
  have hr : a.read (m.write a.off ys) = ys := Sl.read_write_self _ _ _ hly
  obtain ⟨obs, m', v', t', last, g1, g2, g3, _⟩ := PQM.execAll_step (P := fun _ => True) grow (impl := .ordered ord) (l := GoOrd.lt) rfl LawfulGoOrd.weak ops
    trivial t1 (fun _ _ => trivial) (hw.write a.off ys) (by rw [hr]; exact e3)
  rw [hr] at g3
  have h1 := hw.1
  refine ⟨_, ys, last, hnew, e2, by rw [g1]; exact g3, fun k hk ho => ?_⟩
  rw [g1]
  simp only
  rw [g2.frame k hk ho, Mem.write_out _ _ _ _ (by omega)]

/-- C100 holds in full for a slice without spare capacity (`a[:n:n]`). -/
theorem C100_full_partial [GoZero T] [ord : GoOrd T] [LawfulGoOrd T] (grow : Nat → Nat → Nat) (a : Sl) (s s' : HS T τ) (ops : List (PQOp T))
    (hw : a.WF s.mem) (hc : a.cap = a.len) (hs : PQM.newOn a s = .ok () s') (k : Nat) (hk : k < s.mem.top) (ho : k < a.off ∨ a.off + a.len ≤ k) :
    (PQM.execAll grow (.ordered ord) s' ops).2.mem.cell k = s.mem.cell k := by
  obtain ⟨s1, _, _, e, _, _, h⟩ := C100_window_partial grow a s ops hw
  rw [hs] at e
  cases e
  exact h k hk (by omega)

/-- The third element of the array is out of reach of a queue on the first two without spare capacity. -/
example : let s' : HS Int Unit := ⟨memOf [4, 5, 7], (), ⟨0, 2, 2⟩⟩
    HS.shown 3 (PQM.newOn ⟨0, 2, 2⟩ (⟨memOf [5, 4, 7], (), Sl.empty⟩ : HS Int Unit)) = HS.shown 3 (.ok () s') ∧
    (PQM.execAll (fun _ n => 2 * n) (.ordered inferInstance) s' [.push 3, .pop, .pop]).1 = [.unit, .val 3, .val 4] ∧
    (List.range 3).map (PQM.execAll (fun _ n => 2 * n) (.ordered inferInstance) s' [.push 3, .pop, .pop]).2.mem.cell = [4, 5, 7] :=
  ⟨by decide +kernel, by decide +kernel, by decide +kernel⟩

end Stl4go
