import Verif.Proofs.DListCursor
/-!
# Properties C114, C117: iterators of `/repo/dlist.go` while the list changes

A history has any number of list variables over one heap and any number of iterators. The specification, `CSpec`, knows lists of elements
and positions in them, no nodes and no links.
-/
namespace Stl4go
variable {T : Type} [GoZero T]

/-- C114: whatever is done with the lists between the steps of the iterators, every observation of a list and of an iterator is the one the
specification gives, for every history it settles. -/
theorem C114_history (ops : List (COp T)) (os : List (DObs T)) (st : CSpec T) (h : CSpec.init.run ops = some (os, st)) :
    (CWorld.init.run ops).1 = os := by
  obtain ⟨_, _, a, _⟩ := CInv.run ops CInv.init h
  exact a

/-- C114: a loop that continues from an iterator after any such history shows the elements from its position on, or, when the list was
cleared, the elements that followed it then; it ends and changes nothing. -/
theorem C114_rest (ops : List (COp T)) (os : List (DObs T)) (st : CSpec T) (h : CSpec.init.run ops = some (os, st)) (c : Nat) (r : List T)
    (hr : (st.curs c).2.rest (st.lists (st.curs c).1).items = some r) (fuel : Nat) (hf : r.length < fuel) :
    let w := (CWorld.init.run ops).2
    (w.curs c).1 = (st.curs c).1 ∧ (w.curs c).2.collect fuel (w.on (w.curs c).1) = .ok r (w.on (w.curs c).1) := by
  obtain ⟨ids, R, _, I⟩ := CInv.run ops CInv.init h
  refine ⟨I.own c, ?_⟩
  rw [I.own c]
  exact CurIs.collect (I.inv _) fuel (I.cur c) hr hf

/-- C114: a loop that continues from an iterator whose element was popped panics. -/
theorem C114_popped (ops : List (COp T)) (os : List (DObs T)) (st : CSpec T) (h : CSpec.init.run ops = some (os, st)) (c : Nat) (v : T)
    (hr : (st.curs c).2 = .popped v) (fuel : Nat) :
    let w := (CWorld.init.run ops).2
    (w.curs c).2.collect (fuel + 2) (w.on (w.curs c).1) = .panic (w.on (w.curs c).1) := by
  obtain ⟨ids, R, _, I⟩ := CInv.run ops CInv.init h
  intro w
  have := I.cur c
  rw [hr] at this
  show _ = Res.panic ((CWorld.init.run ops).2.on _)
  rw [I.own c]
  exact this.collect_popped fuel

/-! ## C117 -/

/-- C117 as one would like it: when `IsNotEnd` answers true, `Value` does not panic (`c` is an iterator the client made, on a list whose
variable was not assigned a new list). -/
def C117_statement : Prop := ∀ (ops : List (COp Int)) (os : List (DObs Int)) (st : CSpec Int) (c : Nat), CSpec.init.run ops = some (os, st) →
  (st.curs c).2 ≠ .dead →
  let w := (CWorld.init.run ops).2
  (w.step (.isNotEnd c)).1 = .flag true → (w.step (.value c)).1 ≠ .panicked

/-- An iterator over a zero `DList`; then the first element is pushed. -/
def exZero : List (COp Int) := [.iterate 0 0, .isNotEnd 0, .list 0 (.pushBack 5), .isNotEnd 0, .value 0]

/-- An iterator over `[1, 2]`; the element it stands on is popped before it moves on. -/
def exPop : List (COp Int) := [.list 0 (.make [1, 2]), .iterate 0 0, .list 0 .popFront, .value 0, .next 0, .isNotEnd 0, .value 0]

example : (CSpec.init.run exZero).map (·.1) = some [.unit, .flag false, .unit, .flag true, .panicked] := by decide +kernel
example : (CSpec.init.run exPop).map (·.1) = some [.unit, .unit, .val 1, .val 1, .unit, .flag true, .panicked] := by decide +kernel

/-- C117 is false: the iterator of a list that was never pushed to holds a nil pointer, which stops being the end with the first push. -/
theorem C117_counterexample : ¬ C117_statement := by
  intro h
  have key : ∀ (r : List (DObs Int) × CSpec Int), CSpec.init.run (exZero.take 3) = some r → (r.2.curs 0).2 ≠ .dead := by
    intro r hr
    have hd : ((CSpec.init.run (exZero.take 3)).map (fun r => (r.2.curs 0).2)) = some .nil := by decide +kernel
    rw [hr] at hd
    simp only [Option.map_some, Option.some.injEq] at hd
    rw [hd]; simp
  cases hr : CSpec.init.run (exZero.take 3) with
  | none =>
    have : (CSpec.init.run (exZero.take 3)).isSome = true := by decide +kernel
    rw [hr] at this; simp at this
  | some r => exact h (exZero.take 3) r.1 r.2 0 hr (key r hr) (by decide +kernel) (by decide +kernel)

/-- C117, partial: what is missing for the full statement is popping while an iterator is on the element, and making an iterator of a list
before its first push. Without these, an iterator that says it is not at the end has a value, and a loop from it gets to the end. -/
theorem C117_usable_partial (ops : List (COp T)) (hc : Careful (fun _ => false) ops = true) (os : List (DObs T)) (st : CSpec T)
    (h : CSpec.init.run ops = some (os, st)) (c : Nat) (hd : (st.curs c).2 ≠ .dead) :
    let w := (CWorld.init.run ops).2
    ((w.step (.isNotEnd c)).1 = .flag true → ∃ v, (w.step (.value c)).1 = .val v) ∧
    ∃ r, ∀ fuel, r.length < fuel → (w.curs c).2.collect fuel (w.on (w.curs c).1) = .ok r (w.on (w.curs c).1) := by
  have ht : st.Tame := CSpec.Tame.run ops (st := CSpec.init) (fun c => .inl rfl) hc h
  obtain ⟨r, hr⟩ := (ht c).resolve_left hd
  intro w
  refine ⟨fun he => ?_, r, fun fuel hf => (C114_rest ops os st h c r hr fuel hf).2⟩
  obtain ⟨ids, R, _, I⟩ := CInv.run ops CInv.init h
  cases hx : (st.curs c).2 with
  | «at» k =>
    have s1 : st.step (.isNotEnd c) = some (.flag (decide (k < (st.lists (st.curs c).1).items.length)), st) := by simp [CSpec.step, hx]
    obtain ⟨_, _, e1, _⟩ := I.step s1
    have he : ((CWorld.init.run ops).2.step (.isNotEnd c)).1 = .flag true := he
    rw [e1] at he
    simp only [DObs.flag.injEq, decide_eq_true_eq] at he
    have s2 : st.step (.value c) = some (.val (st.lists (st.curs c).1).items[k], st) := by simp [CSpec.step, hx, he]
    obtain ⟨_, _, e2, _⟩ := I.step s2
    exact ⟨_, e2⟩
  | left v rest =>
    have s2 : st.step (.value c) = some (.val v, st) := by simp [CSpec.step, hx]
    obtain ⟨_, _, e2, _⟩ := I.step s2
    exact ⟨_, e2⟩
  | popped v => rw [hx] at hr; simp [DCur.rest] at hr
  | nil => rw [hx] at hr; simp [DCur.rest] at hr
  | dead => exact absurd hx hd

/-! ## Concrete cases -/

/-- Two iterators over one list, with pushes at both ends, a pop of an element neither stands on, a write and a clear in between. -/
def exCursors : List (COp Int) :=
  [.list 0 (.make [1, 2, 3]), .iterate 0 0, .iterate 1 0, .next 1, .list 0 (.pushFront 0), .value 0, .value 1, .list 0 (.pushBack 4),
   .list 0 .popFront, .set 1 7, .list 0 .values, .list 0 .clear, .list 0 (.pushBack 9), .value 0, .next 0, .value 0, .next 1, .value 1,
   .next 1, .isNotEnd 1, .value 1, .next 1, .isNotEnd 1, .list 0 .values]

example : (CSpec.init.run exCursors).map (·.1) =
    some [.unit, .unit, .unit, .unit, .unit, .val 1, .val 2, .unit, .val 0, .unit, .list [1, 7, 3, 4], .unit, .unit, .val 1, .unit, .val 7,
      .unit, .val 3, .unit, .flag true, .val 4, .unit, .flag false, .list [9]] := by decide +kernel

/-- Iterator 0 still stands on 7, which was cleared away; a loop from it shows what followed. -/
example : (CSpec.init.run exCursors).map (fun r => ((r.2.curs 0).2.rest (r.2.lists 0).items, (r.2.curs 1).2.rest (r.2.lists 0).items)) =
    some (some [7, 3, 4], some []) := by decide +kernel

example : Careful (fun _ => false) (exCursors.eraseIdx 8) = true := by decide +kernel
example : Careful (fun _ => false) exCursors = false := by decide +kernel
example : (CSpec.init.run (exCursors.eraseIdx 8)).isSome = true := by decide +kernel

/-- An iterator whose element was popped. -/
example : (CSpec.init.run (exPop.take 3)).map (fun r => (r.2.curs 0).2) = some (.popped 1) := by decide +kernel

end Stl4go
