import Verif.Proofs.StackShare
import Verif.Props.HeapMem
/-!
# Property C147: copies of stacks

`b := *a`, then methods of both. `KSeq.runC`: a copy is a stack of its own. `KShared.run`: what copies are. See `Spec/StackShare.lean`.
-/
namespace Stl4go
variable {T : Type} [GoZero T]

/-- C147 in full: a copy of a stack is a stack of its own. False, see `C147_counterexample`. -/
def C147_statement : Prop := ∀ (T : Type) [GoZero T] (grow : Nat → Nat → Nat) (m : Mem T) (h : List (KStmt T)), (∀ i, KStmt.cap i ∉ h) →
  ((VWorld.init m).runStackC grow h).1 = (KSeq.runC (fun _ => []) h).1

/-- For the counterexample: a stack with one element is copied, the element of the first is replaced, and the copy shows the new one. -/
def stackShareWrong : List (KStmt Int) := [.op 0 (.push 1), .copy 1 0, .op 0 .pop, .op 0 (.push 2), .op 1 .top]

example : ((VWorld.init (memOf [])).runStackC (fun _ n => 2 * n) stackShareWrong).1 = [.unit, .unit, .val 1, .unit, .val 2]
    ∧ (KSeq.runC (fun _ => []) stackShareWrong).1 = [.unit, .unit, .val 1, .unit, .val 1] := by decide +kernel

/-- C147 is false. -/
theorem C147_counterexample : ¬ C147_statement := by
  intro h
  have h1 := h Int (fun _ n => 2 * n) (memOf []) stackShareWrong (by intro i; simp [stackShareWrong])
  exact absurd h1 (by decide +kernel)

/-- C147, exactly: in every history of operations and copies, from no stacks, every observation is that of `KShared.run`, and so is what every stack holds
at the end. -/
theorem C147_exact_partial (grow : Nat → Nat → Nat) (m : Mem T) (h : List (KStmt T)) :
    ((VWorld.init m).runStackC grow h).1 = (KShared.init.run grow h).1
    ∧ ∀ i, (((VWorld.init m).runStackC grow h).2.vars i).read ((VWorld.init m).runStackC grow h).2.mem = ((KShared.init.run grow h).2.seq i).reverse := by
  obtain ⟨e, _, hs⟩ := KSim.run grow h (KSim.init m)
  exact ⟨e, hs.read⟩

/-- For the examples: copies in use and out of it, growth, capacities. -/
def stackShareDemo : List (KStmt Int) :=
  [.op 0 (.newCap 2), .op 0 (.push 1), .copy 1 0, .op 0 (.push 2), .op 1 (.push 3), .op 0 .top, .op 0 (.push 4), .op 1 .tryPop, .op 1 (.push 5),
   .op 0 .pop, .op 0 .top, .cap 0, .cap 1, .op 1 .pop, .op 1 .len, .copy 2 1, .op 2 .clear, .op 2 (.push 6), .op 1 .top, .op 1 .isEmpty, .op 2 (.newCap (-1))]

example : ((VWorld.init (memOf [])).runStackC (fun _ n => 2 * n) stackShareDemo).1
    = [.unit, .unit, .unit, .unit, .unit, .val 3, .unit, .try_ 3 true, .unit, .val 4, .val 3, .num 6, .num 2, .val 5, .num 1, .unit, .unit, .unit, .val 6,
       .flag false, .panicked] := by decide +kernel

/-- C147 for histories in which nobody pushes onto a stack while another one that shares its array reaches higher and there is room: copies are
stacks of their own. Every other method may be called on every stack at any time. -/
theorem C147_own_partial (grow : Nat → Nat → Nat) (m : Mem T) (h : List (KStmt T)) (hf : KShared.init.Fair grow h) :
    ((VWorld.init m).runStackC grow h).1 = (KSeq.runC (fun _ => []) h).1
    ∧ ∀ i, (((VWorld.init m).runStackC grow h).2.vars i).read ((VWorld.init m).runStackC grow h).2.mem = ((KSeq.runC (fun _ => []) h).2 i).reverse := by
  obtain ⟨e1, e2⟩ := C147_exact_partial grow m h
  obtain ⟨e3, e4⟩ := (KSim.init m).fair_run grow h hf
  have : (KShared.init (T := T)).seq = fun _ => [] := by funext i; simp [KShared.seq, KShared.init]
  rw [this] at e3 e4
  refine ⟨e1.trans e3, fun i => ?_⟩
  rw [e2 i, e4]

/-- For the example: a copy is taken apart while the first goes on in the shared array; then the copy gets a new array. -/
def stackShareFair : List (KStmt Int) :=
  [.op 0 (.push 1), .op 0 (.push 2), .copy 1 0, .op 0 (.push 3), .op 1 .pop, .op 1 .pop, .op 1 .tryPop, .op 0 .pop, .op 0 .top, .op 1 .new, .op 1 (.push 7),
   .op 0 .len, .op 1 .top]

example : KShared.init.Fair (fun _ n => 3 * n) stackShareFair := by
  refine ⟨fun hr => absurd hr (by decide +kernel), ⟨?_, trivial, ⟨?_, trivial, trivial, trivial, trivial, trivial, trivial,
    ⟨fun hr => absurd hr (by decide +kernel), trivial, trivial, trivial⟩⟩⟩⟩
  · intro _ j hj
    match j, hj with
    | 0, _ => decide +kernel
    | 1, _ => decide +kernel
    | j + 2, hj => exact absurd (show 0 = 1 from hj) (by decide)
  · intro _ j hj
    match j, hj with
    | 0, _ => decide +kernel
    | 1, _ => decide +kernel
    | j + 2, hj => exact absurd (show 0 = 1 from hj) (by decide)

example : ((VWorld.init (memOf [])).runStackC (fun _ n => 3 * n) stackShareFair).1
    = [.unit, .unit, .unit, .unit, .val 2, .val 1, .try_ 0 false, .val 3, .val 2, .unit, .unit, .num 2, .val 7] := by decide +kernel

/-- After every history: an element replaced (`Pop`, `Push`) in a stack that was copied is replaced in the copy. -/
theorem C147_over_partial (grow : Nat → Nat → Nat) (m : Mem T) (h : List (KStmt T)) (i k : Nat) (hik : k ≠ i) (x : T)
    (hne : (((VWorld.init m).runStackC grow h).2.vars i).len ≠ 0) :
    ((VWorld.init m).runStackC grow (h ++ [.copy k i, .op i .pop, .op i (.push x), .op k .top])).1[h.length + 3]? = some (.val x) := by
  rw [(C147_exact_partial grow m _).1, KShared.run_append, List.getElem?_append_right (by rw [KShared.run_length]; omega), KShared.run_length]
  obtain ⟨_, _, hs⟩ := KSim.run grow h (KSim.init m)
  revert hs hne
  generalize ((VWorld.init m).runStackC grow h).2 = w
  generalize (KShared.init.run grow h).2 = a
  intro hne hs
  rw [hs.vars i] at hne
  obtain ⟨f1, f2⟩ := hs.fits i
  have hik' : ¬ i = k := fun e => hik e.symm
  have hr : (a.var i).2 - 1 < (a.arr (a.var i).1).length := by simp only at hne; omega
  have hr2 : (a.var i).2 - 1 + 1 = (a.var i).2 := by simp only at hne; omega
  rw [show h.length + 3 - h.length = 3 by omega]
  simp only [KShared.run, KShared.stmt, KShared.op, KShared.cut, KShared.room, upd_at, if_true, hik', if_false, hr, List.getElem?_cons_succ,
    List.getElem?_cons_zero, Option.some.injEq]
  have : ∀ b : KShared T, b.seq k = x :: ((a.arr (a.var i).1).take ((a.var i).2 - 1)).reverse → (KSeq.step (b.seq k) .top).1 = .val x := by
    intro b e; rw [e]; rfl
  apply this
  simp only [KShared.seq, upd_at, hik, if_false, if_true]
  rw [← hr2, List.take_add_one, List.take_set_of_le (by omega), show (a.var i).2 - 1 + 1 - 1 = (a.var i).2 - 1 by omega, List.getElem?_set_self hr]
  simp

/-- After every history: if a stack that was copied and its copy are pushed to, the stack shows the element pushed to the copy exactly if there was room in
the array. -/
theorem C147_both_partial (grow : Nat → Nat → Nat) (m : Mem T) (h : List (KStmt T)) (i k : Nat) (hik : k ≠ i) (x y : T) :
    ((VWorld.init m).runStackC grow (h ++ [.copy k i, .op i (.push x), .op k (.push y), .op i .top])).1[h.length + 3]?
      = some (.val (if (((VWorld.init m).runStackC grow h).2.vars i).len < (((VWorld.init m).runStackC grow h).2.vars i).cap then y else x)) := by
  rw [(C147_exact_partial grow m _).1, KShared.run_append, List.getElem?_append_right (by rw [KShared.run_length]; omega), KShared.run_length]
  obtain ⟨_, _, hs⟩ := KSim.run grow h (KSim.init m)
  revert hs
  generalize ((VWorld.init m).runStackC grow h).2 = w
  generalize (KShared.init.run grow h).2 = a
  intro hs
  rw [hs.vars i]
  obtain ⟨f1, f2⟩ := hs.fits i
  have hik' : ¬ i = k := fun e => hik e.symm
  rw [show h.length + 3 - h.length = 3 by omega]
  have done : ∀ (b : KShared T) (z : T) (l : List T), b.seq i = z :: l → (KSeq.step (b.seq i) .top).1 = .val z := by
    intro b z l e; rw [e]; rfl
  by_cases hr : (a.var i).2 < (a.arr (a.var i).1).length
  · simp only [KShared.run, KShared.stmt, KShared.op, KShared.room, upd_at, if_true, hik, hik', if_false, hr, List.length_set, List.getElem?_cons_succ,
      List.getElem?_cons_zero, Option.some.injEq]
    apply done _ y ((a.arr (a.var i).1).take (a.var i).2).reverse
    simp only [KShared.seq, upd_at, hik', if_false, if_true]
    rw [List.set_set, List.take_add_one, List.take_set_of_le (Nat.le_refl _), List.getElem?_set_self hr]
    simp
  · have hne : (a.var i).1 ≠ a.next := by omega
    have hlen : (a.seq i).length = (a.var i).2 := by simp [KShared.seq]; omega
    simp only [KShared.run, KShared.stmt, KShared.op, KShared.room, KShared.add, upd_at, if_true, hik, hik', if_false, hr, hne, List.getElem?_cons_succ,
      List.getElem?_cons_zero, Option.some.injEq]
    apply done _ x (a.seq i)
    have h1 : ({ arr := a.arr, next := a.next, var := upd a.var k (a.var i) } : KShared T).seq i = a.seq i := by simp [KShared.seq, upd_at, hik']
    simp only [h1]
    simp only [KShared.seq, upd_at, hik', if_false, if_true, show ¬ a.next = a.next + 1 by omega]
    rw [List.take_left' (by simp; omega)]
    simp

/-- For the examples: with and without room. -/
def stackShareBoth (c : Int) : List (KStmt Int) := [.op 0 (.newCap c), .op 0 (.push 1)]

example : [2, 1].map (fun c => ((VWorld.init (memOf [])).runStackC (fun _ n => 2 * n)
    (stackShareBoth c ++ [.copy 1 0, .op 0 (.push 8), .op 1 (.push 9), .op 0 .top])).1[(stackShareBoth c).length + 3]?) = [some (.val 9), some (.val 8)] := by
  decide +kernel

example : (((VWorld.init (memOf [])).runStackC (fun _ n => 2 * n) (stackShareBoth 1)).2.vars 0).len ≠ 0 := by decide +kernel

end Stl4go
