import Verif.Proofs.DListForEach
/-!
# Properties C33-C35: `/repo/dlist.go`

A history names a list variable for each operation; all variables start as the zero `DList` and share one heap of nodes.
-/
namespace Stl4go
variable {T σ : Type} [GoZero T]

/-- C33: every history on any number of lists gives the observations of sequences, panics included; nothing hangs. -/
theorem C33_history (h : List (Nat × DOp T)) : (DWorld.init.run h).1 = (Deque.run (fun _ => []) h).1 := by
  obtain ⟨_, a, _⟩ := WInv.run h (WInv.init (T := T))
  exact a

/-- C33: the four panicking reads panic exactly on the empty list, `TryPop*` then report `(zero, false)`. -/
theorem C33_panics (h : List (Nat × DOp T)) (i : Nat) :
    let w := (DWorld.init.run h).2
    let st : DS T := { heap := w.heap, l := w.vars i }
    let empty := (DL.exec st .len).1 = .num 0
    ((DL.exec st .front).1 = .panicked ↔ empty) ∧ ((DL.exec st .back).1 = .panicked ↔ empty) ∧
    ((DL.exec st .popFront).1 = .panicked ↔ empty) ∧ ((DL.exec st .popBack).1 = .panicked ↔ empty) ∧
    (empty → (DL.exec st .tryPopFront).1 = .try_ GoZero.zero false ∧ (DL.exec st .tryPopBack).1 = .try_ GoZero.zero false) ∧
    (¬ empty → ∃ v v', (DL.exec st .tryPopFront).1 = .try_ v true ∧ (DL.exec st .tryPopBack).1 = .try_ v' true) := by
  intro w st empty
  obtain ⟨ids, _, hw⟩ := WInv.run h (WInv.init (T := T))
  have obs : ∀ op, (DL.exec st op).1 = (Deque.step ((Deque.run (fun _ => []) h).2 i) op).1 := by
    intro op
    obtain ⟨_, _, _, a, _⟩ := (hw.inv i).exec op
    show (DL.exec ⟨w.heap, w.vars i⟩ op).1 = _
    rw [a]
  simp only [empty, obs]
  generalize (Deque.run (fun _ => []) h).2 i = s
  by_cases hs : s = []
  · subst hs; simp [Deque.step]
  · obtain ⟨r, v, rfl⟩ := exists_concat hs
    have hl : ((r ++ [v]).length : Int) ≠ 0 := by simp; omega
    have hg : (r ++ [v]).getLast? = some v := by simp
    cases hr : r ++ [v] with
    | nil => simp at hr
    | cons a b => rw [hr] at hl hg; simp only [Deque.step, hg]; simpa using hl

theorem Deque.step_panic (s : List T) (op : DOp T) (hp : (Deque.step s op).1 = .panicked) : (Deque.step s op).2 = s := by
  by_cases hs : s = []
  · subst hs; cases op <;> simp_all [Deque.step]
  · obtain ⟨r, v, rfl⟩ := exists_concat hs
    have hg : (r ++ [v]).getLast? = some v := by simp
    cases hr : r ++ [v] with
    | nil => simp at hr
    | cons a b => rw [hr] at hg hp; cases op <;> simp only [Deque.step, hg] at hp ⊢ <;> simp at hp

/-- C33: a panicking call leaves every list as it was. -/
theorem C33_panic_keeps (h : List (Nat × DOp T)) (i : Nat) (op : DOp T)
    (hp : (DL.exec { heap := (DWorld.init.run h).2.heap, l := (DWorld.init.run h).2.vars i } op).1 = .panicked) (more : List (Nat × DOp T)) :
    (DWorld.init.run (h ++ (i, op) :: more)).1 = (DWorld.init.run h).1 ++ .panicked :: ((DWorld.init.run (h ++ more)).1.drop h.length) := by
  obtain ⟨ids, _, hw⟩ := WInv.run h (WInv.init (T := T))
  obtain ⟨_, _, _, a, _⟩ := (hw.inv i).exec op
  rw [a] at hp
  simp only [C33_history]
  have app : ∀ (h : List (Nat × DOp T)) (s : Nat → List T) (m : List (Nat × DOp T)), (Deque.run s (h ++ m)).1 =
      (Deque.run s h).1 ++ (Deque.run (Deque.run s h).2 m).1 := by
    intro h
    induction h with
    | nil => intro s m; rfl
    | cons o h ih => intro s m; simp [Deque.run, ih]
  have len : ∀ (h : List (Nat × DOp T)) (s : Nat → List T), (Deque.run s h).1.length = h.length := by
    intro h
    induction h with
    | nil => intro s; rfl
    | cons o h ih => intro s; simp [Deque.run, ih]
  rw [app, app, List.drop_append_of_le_length (by rw [len]; exact Nat.le_refl _), List.drop_of_length_le (by rw [len]; exact Nat.le_refl _)]
  congr 1
  generalize hs : (Deque.run (fun _ => []) h).2 = s at *
  have key : (Deque.step (s i) op).2 = s i := Deque.step_panic _ _ hp
  simp only [Deque.run, key, List.nil_append]
  congr 2
  congr 1
  funext j
  by_cases hj : j = i
  · subst hj; simp
  · simp [hj]

/-- C34: `ForEach` and `ForEachIf` show the callback the elements front to back, the latter up to the first false, and change nothing;
the iterator lists the same elements. -/
theorem C34_visit (h : List (Nat × DOp T)) (i : Nat) (f : σ → T → σ) (g : σ → T → σ × Bool) (t : σ) :
    let w := (DWorld.init.run h).2
    let st : DS T := { heap := w.heap, l := w.vars i }
    let s := (Deque.run (fun _ => []) h).2 i
    DL.forEach f t st = .ok (s.foldl f t) st ∧ DL.forEachIf g t st = .ok (visitWhile1 g t s) st ∧
    (do let it ← DL.iterate; it.collect (w.heap.length + 1) : GoM (DS T) (List T)) st = .ok s st := by
  obtain ⟨ids, _, hw⟩ := WInv.run h (WInv.init (T := T))
  exact ⟨(hw.inv i).forEach f t, (hw.inv i).forEachIf g t, (hw.inv i).values⟩

/-- The lists after replacing the contents of list `i`. -/
def DWorld.Becomes (w : DWorld T) (i : Nat) (st : DS T) (s : Nat → List T) (s' : List T) : Prop :=
  ∀ ops, (DWorld.run { heap := st.heap, vars := fun j => if j = i then st.l else w.vars j } ops).1 =
    (Deque.run (fun j => if j = i then s' else s j) ops).1

theorem WInv.becomes {w : DWorld T} {s : Nat → List T} {ids : Nat → List Nat} (hw : WInv w s ids) (i : Nat) {h' : List (DNode T)} {s' : List T}
    (hi : DInv h' (w.vars i) (ids i) s') (hf : DFrame w.heap h' (foot (w.vars i) (ids i))) :
    w.Becomes i ⟨h', w.vars i⟩ s s' := by
  intro ops
  obtain ⟨_, a, _⟩ := WInv.run ops (hw.inPlace i hi hf)
  rw [← a]
  congr 3
  funext j
  by_cases hj : j = i
  · subst hj; simp
  · simp [hj]

/-- C34: `ForEachMutable` hands the callback every element and stores what it writes; whatever the client does afterwards, with this and
with other lists, it sees exactly those values. -/
theorem C34_mutable (h : List (Nat × DOp T)) (i : Nat) (f : σ → T → σ × T) (t : σ) :
    let w := (DWorld.init.run h).2
    let s := (Deque.run (fun _ => []) h).2
    ∃ st, DL.forEachMutable f t { heap := w.heap, l := w.vars i } = .ok (updateAll1 f t (s i)).1 st ∧ w.Becomes i st s (updateAll1 f t (s i)).2 := by
  obtain ⟨ids, _, hw⟩ := WInv.run h (WInv.init (T := T))
  obtain ⟨h', e, hi, hf⟩ := (hw.inv i).forEachMutable f t
  exact ⟨_, e, hw.becomes i hi hf⟩

/-- C34: `ForEachMutableIf` updates exactly the elements up to the first false. -/
theorem C34_mutableIf (h : List (Nat × DOp T)) (i : Nat) (f : σ → T → σ × T × Bool) (t : σ) :
    let w := (DWorld.init.run h).2
    let s := (Deque.run (fun _ => []) h).2
    ∃ st, DL.forEachMutableIf f t { heap := w.heap, l := w.vars i } = .ok (updateWhile1 f t (s i)).1 st ∧
      w.Becomes i st s (updateWhile1 f t (s i)).2 := by
  obtain ⟨ids, _, hw⟩ := WInv.run h (WInv.init (T := T))
  obtain ⟨h', e, hi, hf⟩ := (hw.inv i).forEachMutableIf f t
  exact ⟨_, e, hw.becomes i hi hf⟩

/-- C34: writing through the iterator's pointer replaces every element. -/
theorem C34_pointer (h : List (Nat × DOp T)) (i : Nat) (f : T → T) :
    let w := (DWorld.init.run h).2
    let s := (Deque.run (fun _ => []) h).2
    ∃ st, (do let it ← DL.iterate; it.update f (w.heap.length + 1) : GoM (DS T) Unit) { heap := w.heap, l := w.vars i } = .ok () st ∧
      w.Becomes i st s ((s i).map f) := by
  obtain ⟨ids, _, hw⟩ := WInv.run h (WInv.init (T := T))
  obtain ⟨h', e, hi, hf⟩ := (hw.inv i).iterUpdate f
  exact ⟨_, e, hw.becomes i hi hf⟩

/-- Observations of the operations on list `i`. -/
def obsOf (i : Nat) : List (Nat × DOp T) → List (DObs T) → List (DObs T)
  | (j, _) :: h, o :: os => if j = i then o :: obsOf i h os else obsOf i h os
  | _, _ => []

/-- C35: what a client sees of list `i` is what it would see had it used no other list. -/
theorem C35_independent (h : List (Nat × DOp T)) (i : Nat) :
    obsOf i h (DWorld.init.run h).1 = (DWorld.init.run (h.filter (fun o => o.1 == i))).1 := by
  rw [C33_history, C33_history]
  suffices ∀ (s s' : Nat → List T), s i = s' i → obsOf i h (Deque.run s h).1 = (Deque.run s' (h.filter (fun o => o.1 == i))).1 from
    this _ _ rfl
  induction h with
  | nil => intro s s' _; rfl
  | cons o h ih =>
    intro s s' hs
    obtain ⟨j, op⟩ := o
    by_cases hj : j = i
    · subst hj
      simp only [Deque.run, obsOf, if_true, List.filter_cons, beq_self_eq_true, hs]
      rw [ih _ (fun k => if k = j then (Deque.step (s' j) op).2 else s' k) (by simp)]
    · have hb : (j == i) = false := by simpa using hj
      simp only [Deque.run, obsOf, if_neg hj, List.filter_cons, hb]
      exact ih _ _ (by simp [Ne.symm hj, hs])

/-- C35: one operation on list `i` leaves length and elements of every other list as they were. -/
theorem C35_frame (h : List (Nat × DOp T)) (i j : Nat) (hij : j ≠ i) (op : DOp T) :
    let w := (DWorld.init.run h).2
    let st := (DL.exec { heap := w.heap, l := w.vars i } op).2
    (DL.exec { heap := st.heap, l := w.vars j } .values).1 = (DL.exec { heap := w.heap, l := w.vars j } .values).1 ∧
    (DL.exec { heap := st.heap, l := w.vars j } .len).1 = (DL.exec { heap := w.heap, l := w.vars j } .len).1 := by
  intro w st
  obtain ⟨ids, _, hw⟩ := WInv.run h (WInv.init (T := T))
  obtain ⟨h', l', _, a1, _, a3, _⟩ := (hw.inv i).exec op
  have hst : st = ⟨h', l'⟩ := by show (DL.exec ⟨w.heap, w.vars i⟩ op).2 = _; rw [a1]
  have hi' := (hw.inv j).frame a3 (fun q hq hc => hw.disj j i hij q hq hc)
  rw [hst]
  have obs : ∀ {hp ids s} (_ : DInv hp (w.vars j) ids s) (op : DOp T), (DL.exec ⟨hp, w.vars j⟩ op).1 = (Deque.step s op).1 := by
    intro hp ids s hi op
    obtain ⟨_, _, _, a, _⟩ := hi.exec op
    rw [a]
  exact ⟨by rw [obs hi', obs (hw.inv j)], by rw [obs hi', obs (hw.inv j)]⟩

/-! ## Concrete cases -/

/-- Two lists, both ends, a panic, clearing. -/
def exHistory : List (Nat × DOp Int) :=
  [(0, .make [1, 2]), (1, .pushFront 7), (0, .pushFront 0), (0, .popBack), (1, .popBack), (1, .popFront), (0, .values), (1, .tryPopBack),
   (0, .clear), (0, .pushBack 5), (0, .back), (0, .len)]

example : (DWorld.init.run exHistory).1 =
    [.unit, .unit, .unit, .val 2, .val 7, .panicked, .list [0, 1], .try_ 0 false, .unit, .unit, .val 5, .num 1] := by decide +kernel

example : obsOf 1 exHistory (DWorld.init.run exHistory).1 = [.unit, .val 7, .panicked, .try_ 0 false] := by decide +kernel

/-- The hypothesis of `C33_panic_keeps`. -/
example : (DL.exec { heap := (DWorld.init.run (exHistory.take 5)).2.heap, l := (DWorld.init.run (exHistory.take 5)).2.vars 1 }
    (.popFront : DOp Int)).1 = .panicked := by decide +kernel

example : updateWhile1 (fun (n : Nat) (x : Int) => (n + 1, 10 * x, decide (n < 1))) 0 [1, 2, 3] = (2, [10, 20, 3]) := by decide +kernel

end Stl4go
