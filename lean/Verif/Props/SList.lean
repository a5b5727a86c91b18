import Verif.Proofs.SList
/-!
# Properties C37-C39, C83: `/repo/slist.go`

A history names a list variable for each operation; all variables start as the zero `SList` and share one heap of nodes.
-/
namespace Stl4go
variable {T σ : Type} [GoZero T]

/-- C37: every history on any number of lists gives the observations of sequences, panics included; nothing hangs. -/
theorem C37_history (h : List (Nat × LOp T)) : (LWorld.init.run h).1 = (LSeq.run (fun _ => []) h).1 := by
  obtain ⟨_, a, _⟩ := LWInv.run h (LWInv.init (T := T))
  exact a

/-- C37: `Front`, `Back` and `PopFront` panic exactly on the empty list. -/
theorem C37_panics (h : List (Nat × LOp T)) (i : Nat) :
    let w := (LWorld.init.run h).2
    let st : LS T := { heap := w.heap, l := w.vars i }
    let empty := (LL.exec st .len).1 = .num 0
    ((LL.exec st .front).1 = .panicked ↔ empty) ∧ ((LL.exec st .back).1 = .panicked ↔ empty) ∧ ((LL.exec st .popFront).1 = .panicked ↔ empty) := by
  intro w st empty
  obtain ⟨ids, _, hw⟩ := LWInv.run h (LWInv.init (T := T))
  have obs : ∀ op, (LL.exec st op).1 = (LSeq.step ((LSeq.run (fun _ => []) h).2 i) op).1 := by
    intro op
    obtain ⟨_, _, _, a, _⟩ := (hw.inv i).exec op
    show (LL.exec ⟨w.heap, w.vars i⟩ op).1 = _
    rw [a]
  simp only [empty, obs]
  generalize (LSeq.run (fun _ => []) h).2 i = s
  cases s with
  | nil => simp [LSeq.step]
  | cons a b =>
    have hl : ((a :: b).length : Int) ≠ 0 := by simp; omega
    cases hg : (a :: b).getLast? with
    | none => simp at hg
    | some v => simp only [LSeq.step, hg]; simpa using hl

omit [GoZero T] in
theorem LSeq.run_append (h : List (Nat × LOp T)) : ∀ (s : Nat → List T) (m : List (Nat × LOp T)),
    LSeq.run s (h ++ m) = ((LSeq.run s h).1 ++ (LSeq.run (LSeq.run s h).2 m).1, (LSeq.run (LSeq.run s h).2 m).2) := by
  induction h with
  | nil => intro s m; rfl
  | cons o h ih => intro s m; simp [LSeq.run, ih]

/-- C38: after any history, `Reverse` followed by listing, `Len` and both ends: the reversed elements, the same length, the ends swapped. -/
theorem C38_reverse (h : List (Nat × LOp T)) (i : Nat) :
    let s := (LSeq.run (fun _ => []) h).2 i
    (LWorld.init.run (h ++ [(i, .values), (i, .reverse), (i, .values), (i, .iterate), (i, .len)])).1 =
      (LWorld.init.run h).1 ++ [.list s, .unit, .list s.reverse, .list s.reverse, .num s.length] := by
  rw [C37_history, C37_history, LSeq.run_append]
  simp [LSeq.run, LSeq.step]

/-- C38: `Front` after `Reverse` is `Back` before, and the other way round. -/
theorem C38_ends (h : List (Nat × LOp T)) (i : Nat) (a b : T)
    (hb : (LWorld.init.run (h ++ [(i, .front), (i, .back)])).1 = (LWorld.init.run h).1 ++ [.val a, .val b]) :
    (LWorld.init.run (h ++ [(i, .reverse), (i, .front), (i, .back)])).1 = (LWorld.init.run h).1 ++ [.unit, .val b, .val a] := by
  rw [C37_history, C37_history, LSeq.run_append] at hb ⊢
  generalize LSeq.run (fun _ => []) h = r at hb ⊢
  have hb' := List.append_cancel_left hb
  congr 1
  cases hs : r.2 i with
  | nil => simp [LSeq.run, LSeq.step, hs] at hb'
  | cons x t =>
    cases hg : (x :: t).getLast? with
    | none => simp at hg
    | some y =>
      simp only [LSeq.run, LSeq.step, hs, if_true, hg, List.cons.injEq, DObs.val.injEq, and_true] at hb'
      obtain ⟨rfl, rfl⟩ := hb'
      have hr : (x :: t).reverse.head? = some y := by rw [List.head?_reverse]; exact hg
      have hl : (x :: t).reverse.getLast? = some x := by rw [List.getLast?_reverse]; rfl
      cases hrev : (x :: t).reverse with
      | nil => simp at hrev
      | cons u v =>
        rw [hrev] at hr hl
        simp only [List.head?_cons, Option.some.injEq] at hr
        subst hr
        simp only [LSeq.run, LSeq.step, hs, if_true, hrev, hl]

/-- C38: reversing twice cannot be told from not reversing, whatever follows on this or other lists. -/
theorem C38_involutive (h more : List (Nat × LOp T)) (i : Nat) :
    (LWorld.init.run (h ++ (i, .reverse) :: (i, .reverse) :: more)).1.drop (h.length + 2) = (LWorld.init.run (h ++ more)).1.drop h.length := by
  have len : ∀ (h : List (Nat × LOp T)) (s : Nat → List T), (LSeq.run s h).1.length = h.length := by
    intro h
    induction h with
    | nil => intro s; rfl
    | cons o h ih => intro s; simp [LSeq.run, ih]
  rw [C37_history, C37_history, LSeq.run_append, LSeq.run_append]
  generalize hr : LSeq.run (fun _ => []) h = r
  have hl : r.1.length = h.length := by rw [← hr]; exact len h _
  rw [← hl, List.drop_append, List.drop_append]
  simp only [LSeq.run, LSeq.step]
  have e : (fun j => if j = i then (if True then (r.2 i).reverse else r.2 i).reverse else (if j = i then (r.2 i).reverse else r.2 j)) = r.2 := by
    funext j
    by_cases hj : j = i
    · subst hj; simp
    · simp [hj]
  rw [e]
  simp

/-- C38: pushes after `Reverse` go to the right ends. -/
theorem C38_push_after (h : List (Nat × LOp T)) (i : Nat) (a b : T) :
    let s := (LSeq.run (fun _ => []) h).2 i
    (LWorld.init.run (h ++ [(i, .reverse), (i, .pushBack a), (i, .pushFront b), (i, .values), (i, .back), (i, .popFront)])).1 =
      (LWorld.init.run h).1 ++ [.unit, .unit, .unit, .list (b :: s.reverse ++ [a]), .val a, .val b] := by
  rw [C37_history, C37_history, LSeq.run_append]
  have : ∀ s : List T, (b :: (s.reverse ++ [a])).getLast? = some a := by
    intro s; rw [← List.cons_append]; exact List.getLast?_concat
  simp [LSeq.run, LSeq.step, this]

/-- C39: `Values` and an iterator list the elements; `ForEach` and `ForEachIf` show them to the callback front to back, the latter up to
the first false; none of them changes anything. -/
theorem C39_visit (h : List (Nat × LOp T)) (i : Nat) (f : σ → T → σ) (g : σ → T → σ × Bool) (t : σ) :
    let w := (LWorld.init.run h).2
    let st : LS T := { heap := w.heap, l := w.vars i }
    let s := (LSeq.run (fun _ => []) h).2 i
    LL.values st = .ok s st ∧ (do let it ← LL.iterate; it.collect (w.heap.length + 1) : GoM (LS T) (List T)) st = .ok s st ∧
    LL.forEach f t st = .ok (s.foldl f t) st ∧ LL.forEachIf g t st = .ok (visitWhile1 g t s) st := by
  obtain ⟨ids, _, hw⟩ := LWInv.run h (LWInv.init (T := T))
  have i' := hw.inv i
  have fu : (ids i).length < (LWorld.init.run h).2.heap.length + 1 := by have := i'.fuel; omega
  refine ⟨i'.values, i'.iterate, ?_, ?_⟩
  · simp [LL.forEach, GoM.bind_def, i'.head, Walk.forEachLoop f _ i'.walk fu]
  · simp [LL.forEachIf, GoM.bind_def, i'.head, Walk.forEachIfLoop g _ i'.walk fu]

/-- C39: `ForEachMutable` stores what the callback writes for every element; `ForEachMutableIf` up to the first false; the iterator's
pointer addresses its element. What the client does afterwards, with this and with other lists, shows exactly those values. -/
theorem C39_mutable (h : List (Nat × LOp T)) (i : Nat) (f : σ → T → σ × T) (g : σ → T → σ × T × Bool) (p : T → T) (t : σ) :
    let w := (LWorld.init.run h).2
    let st : LS T := { heap := w.heap, l := w.vars i }
    let s := (LSeq.run (fun _ => []) h).2
    (∃ st', LL.forEachMutable f t st = .ok (updateAll1 f t (s i)).1 st' ∧ w.Becomes i st' s (updateAll1 f t (s i)).2) ∧
    (∃ st', LL.forEachMutableIf g t st = .ok (updateWhile1 g t (s i)).1 st' ∧ w.Becomes i st' s (updateWhile1 g t (s i)).2) ∧
    (∃ st', (do let it ← LL.iterate; it.update p (w.heap.length + 1) : GoM (LS T) Unit) st = .ok () st' ∧ w.Becomes i st' s ((s i).map p)) := by
  obtain ⟨ids, _, hw⟩ := LWInv.run h (LWInv.init (T := T))
  have i' := hw.inv i
  have fu : (ids i).length < (LWorld.init.run h).2.heap.length + 1 := by have := i'.fuel; omega
  refine ⟨?_, ?_, ?_⟩
  · obtain ⟨h', e, hi, hf⟩ := LInv.forEachMutableLoop f _ (A := []) (sA := []) (t := t) i' rfl fu
    exact ⟨_, by simp [LL.forEachMutable, GoM.bind_def, i'.head, e], hw.becomes i hi hf⟩
  · obtain ⟨h', e, hi, hf⟩ := LInv.forEachMutableIfLoop g _ (A := []) (sA := []) (t := t) i' rfl fu
    exact ⟨_, by simp [LL.forEachMutableIf, GoM.bind_def, i'.head, e], hw.becomes i hi hf⟩
  · obtain ⟨h', e, hi, hf⟩ := LInv.updateLoop p _ (A := []) (sA := []) i' rfl fu
    exact ⟨_, by simp [LL.iterate, GoM.bind_def, i'.head, e], hw.becomes i hi hf⟩

/-- C83: what a client sees of list `i` is what it would see had it used no other list. -/
theorem C83_independent (h : List (Nat × LOp T)) (i : Nat) :
    LSeq.obsOf i h (LWorld.init.run h).1 = (LWorld.init.run (h.filter (fun o => o.1 == i))).1 := by
  rw [C37_history, C37_history]
  suffices ∀ (s s' : Nat → List T), s i = s' i → LSeq.obsOf i h (LSeq.run s h).1 = (LSeq.run s' (h.filter (fun o => o.1 == i))).1 from
    this _ _ rfl
  induction h with
  | nil => intro s s' _; rfl
  | cons o h ih =>
    intro s s' hs
    obtain ⟨j, op⟩ := o
    by_cases hj : j = i
    · subst hj
      simp only [LSeq.run, LSeq.obsOf, if_true, List.filter_cons, beq_self_eq_true, hs]
      rw [ih _ (fun k => if k = j then (LSeq.step (s' j) op).2 else s' k) (by simp)]
    · have hb : (j == i) = false := by simpa using hj
      simp only [LSeq.run, LSeq.obsOf, if_neg hj, List.filter_cons, hb]
      exact ih _ _ (by simp [Ne.symm hj, hs])

/-! ## Concrete cases -/

def exSList : List (Nat × LOp Int) :=
  [(0, .make [1, 2, 3]), (1, .pushFront 7), (0, .reverse), (0, .pushBack 9), (0, .values), (1, .popFront), (1, .popFront), (1, .pushBack 4),
   (1, .back), (0, .popFront), (0, .iterate), (0, .len)]

example : (LWorld.init.run exSList).1 =
    [.unit, .unit, .unit, .unit, .list [3, 2, 1, 9], .val 7, .panicked, .unit, .val 4, .val 3, .list [2, 1, 9], .num 3] := by decide +kernel

/-- The hypothesis of `C38_ends`. -/
example : (LWorld.init.run ([(0, .make [1, 2, 3])] ++ [(0, .front), (0, .back)])).1 =
    (LWorld.init.run [(0, .make [1, 2, 3])]).1 ++ [.val (1 : Int), .val 3] := by decide +kernel

end Stl4go
