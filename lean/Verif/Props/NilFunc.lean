import Verif.Proofs.NilFunc
/-! # C184: nil functions -/
namespace Stl4go
variable {T ρ τ K V : Type}

/-! ## Slices -/

/-- C184: given a nil function, the functions that look at a slice return on an empty slice what they return on one for any function, and panic on every other. -/
theorem C184_looking (a : Sl) (s : CS T ρ) :
    UpTo 0 a.len s (-1, false) (findIfC a (fun _ => nilCall) s) ∧ UpTo 0 a.len s true (allOfC a (fun _ => nilCall) s) ∧
      UpTo 0 a.len s false (anyOfC a (fun _ => nilCall) s) ∧ UpTo 0 a.len s true (noneOfC a (fun _ => nilCall) s) ∧
      UpTo 0 a.len s 0 (countIfC a (fun _ => nilCall) s) ∧ UpTo 0 a.len s () (Vec.forEachC a (fun _ => nilCall) s) ∧
      UpTo 0 a.len s () (Vec.forEachIfC a (fun _ => nilCall) s) :=
  ⟨findIf_nil a s, allOf_nil a s, anyOf_nil a s, noneOf_nil a s, countIf_nil a s, forEach_nil a s, forEachIf_nil a s⟩

/-- C184: so do those that change a slice, and no element is changed before they panic. -/
theorem C184_changing (a : Sl) (new : T) (s : CS T ρ) :
    UpTo 0 a.len s () (transformC a (fun _ => nilCall) s) ∧ UpTo 0 a.len s () (generateC a nilCall s) ∧
      UpTo 0 a.len s () (replaceIfC a (fun _ => nilCall) new s) ∧ UpTo 0 a.len s a (removeIfC a (fun _ => nilCall) s) ∧
      UpTo 0 a.len s () (Vec.forEachMutableC a (fun _ => nilCall) s) ∧ UpTo 0 a.len s () (Vec.forEachMutableIfC a (fun _ => nilCall) s) :=
  ⟨transform_nil a s, generate_nil a s, replaceIf_nil a s new, removeIf_nil a s, forEachMutable_nil a s, forEachMutableIf_nil a s⟩

/-- C184: so do the binary searches. -/
theorem C184_searching (a : Sl) (v : T) (s : CS T ρ) :
    UpTo 0 a.len s 0 (lowerBoundFuncE a v (fun _ _ => nilCall) s) ∧ UpTo 0 a.len s 0 (upperBoundFuncE a v (fun _ _ => nilCall) s) ∧
      UpTo 0 a.len s (-1, false) (binarySearchFuncE a v (fun _ _ => nilCall) s) :=
  ⟨lowerBound_nil a s v, upperBound_nil a s v, binarySearch_nil a s v⟩

/-- An empty slice and one of a single element. -/
example : (let s : CS Nat Unit := ⟨⟨fun k => k, 5⟩, ()⟩
    [(⟨2, 0, 1⟩ : Sl), ⟨2, 1, 1⟩].map fun a => match countIfC a (fun _ => nilCall) s, lowerBoundFuncE a 7 (fun _ _ => nilCall) s with
      | .ok n _, .ok i _ => some (n, i)
      | .panic _, .panic _ => none
      | _, _ => some (9, 9)) = [some (0, 0), none] := by decide +kernel

/-! ## Heaps -/

/-- C184: making and testing a heap compares nothing up to one element, and panics with more. -/
theorem C184_make (h : Sl) (s : HS T τ) :
    UpTo 1 h.len s () (makeHeapFuncM h (fun _ _ => nilCall) s) ∧ UpTo 1 h.len s true (isHeapFuncA h (fun _ _ => nilCall) s) := ⟨make_nil s, isHeap_nil s⟩

/-- C184: a push panics unless the heap was empty, but the element is the last of the heap afterwards in both cases. -/
theorem C184_push [GoZero T] (grow : Nat → Nat → Nat) (v : T) (s : HS T τ) (hw : s.heap.WF s.mem) :
    ∃ m1 h1, AddedLast s.mem s.heap v m1 h1 ∧ h1.len = s.heap.len + 1 ∧
      pushHeapFuncM grow v (fun _ _ => nilCall) s = if s.heap.len = 0 then .ok () ⟨m1, s.st, h1⟩ else .panic ⟨m1, s.st, h1⟩ := push_nil grow v s hw

/-- C184: popping works with one or two elements. With more it panics, after the first and the last were exchanged. -/
theorem C184_pop (s : HS T τ) (hw : s.heap.WF s.mem) :
    (s.heap.len = 0 → popHeapFuncM (fun _ _ => nilCall) s = .panic s) ∧
      ∀ n (hn : (s.heap.read s.mem).length = n + 1),
        popHeapFuncM (fun _ _ => nilCall) s =
          let ys := ((s.heap.read s.mem).set 0 ((s.heap.read s.mem)[n]'(by omega))).set n ((s.heap.read s.mem)[0]'(by omega))
          if n ≤ 1 then .ok ((s.heap.read s.mem)[0]'(by omega)) ⟨s.mem.write s.heap.off ys, s.st, { s.heap with len := n }⟩
          else .panic ⟨s.mem.write s.heap.off ys, s.st, s.heap⟩ := ⟨pop_nil_empty s, pop_nil s hw⟩

/-- C184: removing works for the last element and for the first of two. With any other index it panics, after the element was exchanged with the last. -/
theorem C184_remove (s : HS T τ) (hw : s.heap.WF s.mem) :
    (∀ i : Int, ¬ (0 ≤ i ∧ i < s.heap.len) → removeHeapFuncM i (fun _ _ => nilCall) s = .panic s) ∧
      ∀ (i n : Nat) (hn : (s.heap.read s.mem).length = n + 1) (hi : i < (s.heap.read s.mem).length),
        removeHeapFuncM (i : Int) (fun _ _ => nilCall) s =
          let ys := ((s.heap.read s.mem).set i ((s.heap.read s.mem)[n]'(by omega))).set n (s.heap.read s.mem)[i]
          if i = n ∨ (i = 0 ∧ n = 1) then .ok (s.heap.read s.mem)[i] ⟨s.mem.write s.heap.off ys, s.st, { s.heap with len := n }⟩
          else .panic ⟨s.mem.write s.heap.off ys, s.st, s.heap⟩ := ⟨fun i => remove_nil_out i s, fun i n hn hi => remove_nil i s hw n hn hi⟩

/-- The heap after the call, and the result if there is one. -/
def nilSeen : Res (HS Nat Unit) Nat → Option (Option Nat × List Nat)
  | .ok x s => some (some x, s.heap.read s.mem)
  | .panic s => some (none, s.heap.read s.mem)
  | .diverge => none

/-- Four elements, two elements, and one. -/
example : (let s (n : Nat) : HS Nat Unit := ⟨⟨fun k => k + 10, 4⟩, (), ⟨0, n, 4⟩⟩
    [nilSeen (popHeapFuncM (fun _ _ => nilCall) (s 4)), nilSeen (removeHeapFuncM 1 (fun _ _ => nilCall) (s 4)), nilSeen (removeHeapFuncM 3 (fun _ _ => nilCall) (s 4)),
      nilSeen (popHeapFuncM (fun _ _ => nilCall) (s 2)), nilSeen (popHeapFuncM (fun _ _ => nilCall) (s 1)), nilSeen (removeHeapFuncM 1 (fun _ _ => nilCall) (s 1))]) =
    [some (none, [13, 11, 12, 10]), some (none, [10, 13, 12, 11]), some (some 13, [10, 11, 12]), some (some 10, [11]), some (some 10, []), some (none, [10])] := by
  decide +kernel

/-! ## Containers -/

/-- C184: `NewPriorityQueueFunc(nil)` returns a queue. Every history on it, also after panics, is the one of a list where only the first push, and a pop from one or two elements, go well. -/
theorem C184_queue [GoZero T] (grow : Nat → Nat → Nat) (m : Mem T) (t : τ) (ops : List (PQOp T)) :
    (PQM.execAll grow (.func fun _ _ => nilCall) ⟨m, t, Sl.empty⟩ ops).1 = (blindRun [] ops).1 :=
  (blind_run grow ops ⟨⟨Nat.le_refl _, Nat.zero_le _⟩, rfl⟩).1

/-- C184: so a queue can be used without a comparison as long as it is empty before each push. -/
theorem C184_queue_one [GoZero T] (grow : Nat → Nat → Nat) (m : Mem T) (t : τ) (vs : List T) :
    (PQM.execAll grow (.func fun _ _ => nilCall) ⟨m, t, Sl.empty⟩ (vs.flatMap fun v => [.push v, .top, .pop])).1 = vs.flatMap fun v => [.unit, .val v, .val v] := by
  rw [C184_queue]
  induction vs with
  | nil => rfl
  | cons v vs ih => simpa [blindRun, blindStep] using ih

/-- C184: and no element that was pushed is lost, although the pushes panic: `Len` counts them all. -/
theorem C184_queue_len [GoZero T] (grow : Nat → Nat → Nat) (m : Mem T) (t : τ) (vs : List T) :
    (PQM.execAll grow (.func fun _ _ => nilCall) ⟨m, t, Sl.empty⟩ (vs.map .push ++ [.len])).1.getLast? = some (.num vs.length) := by
  rw [C184_queue]
  have : ∀ (vs l : List T), (blindRun l (vs.map PQOp.push ++ [.len])).1.getLast? = some (.num (l.length + vs.length)) := by
    intro vs
    induction vs with
    | nil => intro l; cases l <;> rfl
    | cons v vs ih =>
      intro l
      have h := ih (l ++ [v])
      have h2 : (blindStep l (.push v)).2 = l ++ [v] := by cases l <;> rfl
      simp only [List.map_cons, List.cons_append, blindRun, h2]
      rw [List.getLast?_cons, h]
      simp only [List.length_append, List.length_cons, List.length_nil, Option.getD_some]
      congr 2
      omega
  simpa using this vs []

/-- Pushes that panic, and what is then in the queue. -/
example : (PQM.execAll (fun _ n => 2 * n) (.func fun _ _ => nilCall) ⟨⟨fun _ => 0, 0⟩, (), Sl.empty⟩
    [.push 5, .push 3, .push 4, .len, .top, .pop, .top, .clear, .push 7, .push 8, .pop, .pop, .pop] : List (PQObs Nat) × HS Nat Unit).1 =
    [.unit, .panicked, .panicked, .num 3, .val 5, .panicked, .val 4, .unit, .unit, .panicked, .val 7, .val 8, .panicked] := by decide +kernel

/-- C184: `NewSkipListFunc(nil)` returns a map with room for one entry. Once it has one, every method that is given a key panics, and nothing is changed; `Clear` empties it. -/
theorem C184_skiplist (t : τ) (h : List (Nat × SMOp K V)) :
    (SLM.run (fun _ _ => nilCall : CmpM K τ) ⟨newSkipList, t⟩ h).1 = (slotRun none (opsOf h)).1 := by
  obtain ⟨sl', ids', e, _⟩ := slot_run (e := none) h t (SLInv.new (.func fun _ _ => 0 : SLImpl K).less)
  rw [e]

/-- The entry survives the panics. -/
example : (SLM.run (fun _ _ => nilCall : CmpM Nat Unit) ⟨newSkipList, ()⟩
    [(5, .find 1), (7, .insert 1 10), (0, .insert 1 11), (0, .find 1), (0, .remove 1), (0, .len), (0, .iterate), (0, .clear), (3, .insert 2 20), (0, .iterate)]).1 =
    ([.val none, .unit, .panicked, .panicked, .panicked, .num 1, .entries [(1, 10)], .unit, .unit, .entries [(2, 20)]] : List (SMObs Nat Nat)) := by decide +kernel

end Stl4go
