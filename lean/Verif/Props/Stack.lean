import Verif.Proofs.StackSlots
import Verif.Proofs.Stack
import Verif.Props.Transform
/-!
# Properties C49, C84: `/repo/stack.go`

A history names a stack variable for each operation; all start as the zero `Stack` (what `NewStack` returns) and share one memory.
-/
namespace Stl4go
variable {T : Type} [GoZero T]

theorem stacks_init (m : Mem T) : VWInv False (· < m.top) m (VWorld.init m) (fun i => ((fun _ => [] : Nat → List T) i).reverse) where
  wf _ := (Fresh.nil m).wf
  read _ := rfl
  clean f := f.elim
  disj _ _ _ k h := by simp [Sl.Has, VWorld.init, Sl.empty] at h
  others k hk := ⟨hk, rfl, fun _ h => by simp [Sl.Has, VWorld.init, Sl.empty] at h⟩

/-- C49: every history on any number of stacks gives the observations of last-in first-out lists, panics included. -/
theorem C49_history (grow : Nat → Nat → Nat) (m : Mem T) (h : List (Nat × KOp T)) :
    ((VWorld.init m).runStacks grow h).1 = (KSeq.run (fun _ => []) h).1 :=
  (VWInv.runStacks (P := fun _ => True) grow trivial h (stacks_init m) (fun _ _ => trivial) (fun _ _ _ => trivial)).1

/-- C49: `Pop` and `Top` panic exactly on the empty stack; `TryPop` then returns (zero, false), and otherwise what `Pop` would. -/
theorem C49_empty (grow : Nat → Nat → Nat) (m : Mem T) (h : List (Nat × KOp T)) (i : Nat) :
    let w := ((VWorld.init m).runStacks grow h).2
    let st : VS T := { mem := w.mem, v := w.vars i }
    let empty := (Stk.exec grow st .len).1 = .num 0
    ((Stk.exec grow st .pop).1 = .panicked ↔ empty) ∧ ((Stk.exec grow st .top).1 = .panicked ↔ empty) ∧
    (empty → (Stk.exec grow st .tryPop).1 = .try_ GoZero.zero false) ∧
    (¬ empty → ∃ x, (Stk.exec grow st .pop).1 = .val x ∧ (Stk.exec grow st .top).1 = .val x ∧ (Stk.exec grow st .tryPop).1 = .try_ x true) := by
  intro w st empty
  obtain ⟨_, hw, _⟩ := VWInv.runStacks (P := fun _ => True) grow trivial h (stacks_init m) (fun _ _ => trivial) (fun _ _ _ => trivial)
  have obs : ∀ op, (Stk.exec grow st op).1 = (KSeq.step ((KSeq.run (fun _ => []) h).2 i) op).1 := by
    intro op
    obtain ⟨_, _, e, _⟩ := Stk.exec_step (P := fun _ => True) grow op trivial (fun _ _ => trivial) (hw.wf i) (hw.read i)
    show (Stk.exec grow ⟨w.mem, w.vars i⟩ op).1 = _
    rw [e]
  simp only [empty, obs]
  generalize (KSeq.run (fun _ => []) h).2 i = s
  cases s with
  | nil => simp [KSeq.step]
  | cons a b =>
    have hl : ((a :: b).length : Int) ≠ 0 := by simp; omega
    have hl' : ((b.length : Int) + 1) ≠ 0 := by omega
    simp [KSeq.step, hl']

/-- C49: no history of stack operations changes a cell that the rest of the program had before it. -/
theorem C49_rest (grow : Nat → Nat → Nat) (m : Mem T) (h : List (Nat × KOp T)) (k : Nat) (hk : k < m.top) :
    ((VWorld.init m).runStacks grow h).2.mem.cell k = m.cell k :=
  ((VWInv.runStacks (P := fun _ => True) grow trivial h (stacks_init m) (fun _ _ => trivial) (fun _ _ _ => trivial)).2.1.others k hk).2.1

/-- C49: what is pushed comes back in the opposite order. -/
theorem C49_lifo (grow : Nat → Nat → Nat) (m : Mem T) (i : Nat) (xs : List T) :
    ((VWorld.init m).runStacks grow (xs.map (fun x => (i, KOp.push x)) ++ xs.map (fun _ => (i, KOp.pop)))).1
      = xs.map (fun _ => DObs.unit) ++ xs.reverse.map DObs.val := by
  rw [C49_history]
  have pops : ∀ (s : List T) (n : List T) (w : Nat → List T), w i = s → s.length = n.length →
      (KSeq.run w (n.map (fun _ => (i, KOp.pop)))).1 = s.map DObs.val := by
    intro s
    induction s with
    | nil => intro n w _ hn; cases n <;> simp_all [KSeq.run]
    | cons x s ih =>
      intro n w hw hn
      cases n with
      | nil => simp at hn
      | cons y n =>
        simp only [List.map_cons, KSeq.run, hw, KSeq.step]
        rw [ih n _ (by simp) (by simpa using hn)]
  have pushes : ∀ (ys : List T) (w : Nat → List T) (rest : List (Nat × KOp T)),
      (KSeq.run w (ys.map (fun x => (i, KOp.push x)) ++ rest)).1
        = ys.map (fun _ => DObs.unit) ++ (KSeq.run (fun j => if j = i then ys.reverse ++ w i else w j) rest).1 := by
    intro ys
    induction ys with
    | nil =>
      intro w rest
      have : (fun j => if j = i then [].reverse ++ w i else w j) = w := by funext j; by_cases hj : j = i <;> simp [hj]
      simp only [List.map_nil, List.nil_append, this]
    | cons y ys ih =>
      intro w rest
      simp only [List.map_cons, List.cons_append, KSeq.run, KSeq.step, ih]
      congr 3
      congr 1
      funext j
      by_cases hj : j = i <;> simp [hj]
  rw [pushes, pops xs.reverse xs _ (by simp) (by simp)]

/-- A history for the examples. -/
def stackDemo : List (Nat × KOp Int) :=
  [(0, .newCap 1), (0, .push 1), (0, .push 2), (1, .push 7), (0, .pop), (0, .push 3), (0, .top), (0, .len), (0, .pop), (0, .pop), (0, .pop),
   (0, .tryPop), (1, .tryPop), (1, .isEmpty)]

example : ((VWorld.init (memOf [])).runStacks (fun _ n => 2 * n) stackDemo).1 =
    [.unit, .unit, .unit, .unit, .val 2, .unit, .val 3, .num 2, .val 3, .val 1, .panicked, .try_ 0 false, .try_ 7 true, .flag true] := by
  decide +kernel

/-! ## C84 -/

/-- C84 in full: as for `Vector` (C44), the slots a stack does not use are zero. -/
def C84_statement : Prop := ∀ (T : Type) [GoZero T] (grow : Nat → Nat → Nat) (m : Mem T) (h : List (Nat × KOp T)) (i : Nat),
  Clean ((VWorld.init m).runStacks grow h).2.mem (((VWorld.init m).runStacks grow h).2.vars i)

/-- C84 is false of the code: after `Push(5); Pop()` the 5 is still in the array. -/
theorem C84_counterexample : ¬ C84_statement := by
  intro h
  have := h Int (fun _ n => n) (memOf []) [(0, .push 5), (0, .pop)] 0 0 (by decide +kernel) (by decide +kernel)
  revert this
  decide +kernel

/-- C84, what holds: every slot of a stack's array is zero or a value some `Push` of the history stored. Missing: popped values are kept;
`C84_exact` says which. -/
theorem C84_slots_partial (grow : Nat → Nat → Nat) (m : Mem T) (h : List (Nat × KOp T)) (i k : Nat)
    (hk : (((VWorld.init m).runStacks grow h).2.vars i).Has k) :
    ((VWorld.init m).runStacks grow h).2.mem.cell k = GoZero.zero ∨ ((VWorld.init m).runStacks grow h).2.mem.cell k ∈ KOp.pushed h :=
  (VWInv.runStacks (P := fun x => x = GoZero.zero ∨ x ∈ KOp.pushed h) grow (.inl rfl) h (stacks_init m) (fun _ hx => .inr hx)
    (fun _ k hk => by simp [Sl.Has, VWorld.init, Sl.empty] at hk)).2.2 i k hk

example : let w := ((VWorld.init (memOf [])).runStacks (fun _ n => 2 * n) stackDemo).2
    (w.vars 0).Has 2 ∧ w.mem.cell 2 = 3 ∧ (w.vars 0).len = 0 ∧ KOp.pushed stackDemo = [1, 2, 7, 3] := by
  refine ⟨?_, by decide +kernel, by decide +kernel, rfl⟩
  unfold Sl.Has
  decide +kernel

/-- C84, exactly what is kept: after every history every slot of every stack's array, up to its capacity, is the one `KSlots.run` says,
and that capacity is what `Cap` returns. -/
theorem C84_exact (grow : Nat → Nat → Nat) (m : Mem T) (h : List (Nat × KOp T)) (i : Nat) :
    let w := ((VWorld.init m).runStacks grow h).2
    let sl := KSlots.run grow (fun _ => ([], [])) h i
    let st : VS T := { mem := w.mem, v := w.vars i }
    Stk.len st = .ok sl.1.length st ∧ Stk.cap st = .ok (sl.1.length + sl.2.length) st ∧ (w.vars i).cap = sl.1.length + sl.2.length ∧
      Sl.read w.mem { w.vars i with len := (w.vars i).cap } = sl.1.reverse ++ sl.2 := by
  have := VWInv.runSlots grow h (stacks_init m) (sl := fun _ => ([], [])) (fun _ => ⟨rfl, rfl⟩) i
  refine ⟨?_, ?_, this.cap, this.all⟩
  · simp [Stk.len, GoM.bind_def, VS.recv, this.len]
  · simp [Stk.cap, GoM.bind_def, VS.recv, this.cap]

example : KSlots.run (fun _ n => 2 * n) (fun _ => ([], [])) stackDemo 0 = ([], [1, 3, 0, 0]) ∧
    KSlots.run (fun _ n => 2 * n) (fun _ => ([], [])) (stackDemo ++ [(0, .push 4), (0, .push 6), (0, .clear), (0, .push 5)]) 0 = ([5], [6, 0, 0]) := by
  decide +kernel

end Stl4go
