import Verif.Proofs.SListCursor
/-!
# Property C118: iterators of `/repo/slist.go` while the list changes

A history has any number of list variables over one heap and any number of iterators. The specification, `LCSpec`, knows lists of elements
and positions in them, no nodes and no links.
-/
namespace Stl4go
variable {T : Type} [GoZero T]

/-- C118: whatever is done with the lists between the steps of the iterators, every observation of a list and of an iterator is the one the
specification gives, for every history it settles. -/
theorem C118_history (ops : List (LCOp T)) (os : List (DObs T)) (st : LCSpec T) (h : LCSpec.init.run ops = some (os, st)) :
    (LCWorld.init.run ops).1 = os := by
  obtain ⟨_, _, a, _⟩ := LCInv.run ops LCInv.init h
  exact a

/-- C118: a loop that continues from an iterator after any such history shows what the iterator has ahead of it; it ends and changes nothing. -/
theorem C118_rest (ops : List (LCOp T)) (os : List (DObs T)) (st : LCSpec T) (h : LCSpec.init.run ops = some (os, st)) (c : Nat) :
    let r := (st.curs c).2.rest (st.lists (st.curs c).1)
    let w := (LCWorld.init.run ops).2
    ∀ fuel, r.length < fuel → (w.curs c).collect fuel w.free = .ok r w.free := by
  obtain ⟨ids, R, _, I⟩ := LCInv.run ops LCInv.init h
  intro r w fuel hf
  exact LCurIs.collect (I.inv _) r (I.cur c) rfl hf

/-- C118: an iterator has a value exactly if it says that it is not at the end. -/
theorem C118_usable (ops : List (LCOp T)) (os : List (DObs T)) (st : LCSpec T) (h : LCSpec.init.run ops = some (os, st)) (c : Nat) :
    let w := (LCWorld.init.run ops).2
    ((w.step (.isNotEnd c)).1 = .flag true ↔ ∃ v, (w.step (.value c)).1 = .val v) ∧
    ((w.step (.isNotEnd c)).1 = .flag true ↔ (w.step (.next c)).1 ≠ .panicked) := by
  obtain ⟨ids, R, _, I⟩ := LCInv.run ops LCInv.init h
  intro w
  have s1 : st.step (.isNotEnd c) = some (.flag (!((st.curs c).2.rest (st.lists (st.curs c).1)).isEmpty), st) := rfl
  obtain ⟨_, _, e1, _⟩ := I.step s1
  have e1 : (w.step (.isNotEnd c)).1 = _ := e1
  rcases (I.cur c).cases (I.inv _) with ⟨e, _, en, _⟩ | ⟨q, v, r, n', d, e, _, _, _, en, _⟩
  · have s2 : st.step (.value c) = some (.panicked, st) := by simp [LCSpec.step, e]
    have s3 : st.step (.next c) = some (.panicked, st) := by simp [LCSpec.step, en]
    obtain ⟨_, _, e2, _⟩ := I.step s2
    obtain ⟨_, _, e3, _⟩ := I.step s3
    have e2 : (w.step (.value c)).1 = _ := e2
    have e3 : (w.step (.next c)).1 = _ := e3
    rw [e1, e2, e3, e]; simp
  · have s2 : st.step (.value c) = some (.val v, st) := by simp [LCSpec.step, e]
    have s3 : st.step (.next c) = some (.unit, st.put c (st.curs c).1 d) := by simp [LCSpec.step, en]
    obtain ⟨_, _, e2, _⟩ := I.step s2
    obtain ⟨_, _, e3, _⟩ := I.step s3
    have e2 : (w.step (.value c)).1 = _ := e2
    have e3 : (w.step (.next c)).1 = _ := e3
    rw [e1, e2, e3, e]; simp

/-! ## Concrete cases -/

/-- Two iterators over one list, with pushes at both ends, pops of the elements they stand on, a write, a reversal and a clear in between. -/
def exLCursors : List (LCOp Int) :=
  [.list 0 (.make [1, 2, 3]), .iterate 0 0, .iterate 1 0, .next 1, .list 0 (.pushFront 0), .value 0, .value 1, .list 0 (.pushBack 4),
   .list 0 .popFront, .list 0 .popFront, .value 0, .set 1 7, .list 0 .values, .list 0 .reverse, .value 1, .next 1, .isNotEnd 1, .next 0,
   .value 0, .next 0, .isNotEnd 0, .value 0, .next 0, .iterate 0 0, .next 0, .list 0 .clear, .list 0 (.pushBack 9), .value 0, .next 0, .value 0]

example : (LCSpec.init.run exLCursors).map (·.1) =
    some [.unit, .unit, .unit, .unit, .unit, .val 1, .val 2, .unit, .val 0, .val 1, .val 1, .unit, .list [7, 3, 4], .unit, .val 7, .unit,
      .flag false, .unit, .val 7, .unit, .flag false, .panicked, .panicked, .unit, .unit, .unit, .unit, .val 3, .unit, .val 7] := by decide +kernel

/-- Iterator 0 was on 1 and 1 was popped; it still goes on to the list. -/
example : (LCSpec.init.run (exLCursors.take 11)).map (fun r => (r.2.curs 0).2.rest (r.2.lists 0)) = some [1, 2, 3, 4] := by decide +kernel

/-- Iterator 0 stands on an element that was cleared away; a loop from it shows what followed. -/
example : (LCSpec.init.run exLCursors).map (fun r => ((r.2.curs 0).2.rest (r.2.lists 0), (r.2.curs 1).2.rest (r.2.lists 0), r.2.lists 0)) =
    some ([7], [], [9]) := by decide +kernel

end Stl4go
