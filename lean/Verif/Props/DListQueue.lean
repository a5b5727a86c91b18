import Verif.Spec.Queue
import Verif.Props.DList
/-! # Property C36: `/repo/dlist_queue.go` -/
namespace Stl4go
variable {T : Type} [GoZero T]

theorem DQ.exec_eq (s : DS T) (op : QOp T) : DQ.exec s op = DL.exec s op.toDeque := by
  cases op <;> rfl

theorem DWorld.runQ_eq (h : List (Nat × QOp T)) : ∀ w : DWorld T, w.runQ h = w.run (h.map (fun o => (o.1, o.2.toDeque))) := by
  induction h with
  | nil => intro w; rfl
  | cons o h ih => intro w; simp only [DWorld.runQ, List.map_cons, DWorld.run, DQ.exec_eq, ih]

/-- C36: every history on any number of queues gives the observations of deques. -/
theorem C36_history (h : List (Nat × QOp T)) :
    (DWorld.init.runQ h).1 = (Deque.run (fun _ => []) (h.map (fun o => (o.1, o.2.toDeque)))).1 := by
  rw [DWorld.runQ_eq, C33_history]

/-- C36: when queue `i` is used as a queue (other queues in any way), what comes out is what went in, in that order: the popped values
followed by the values still in the queue are the pushed values, and `Len` counts the rest. -/
theorem C36_fifo (h : List (Nat × QOp T)) (i : Nat) (hp : ∀ o ∈ h, o.1 = i → o.2.Plain) :
    ∃ rest, takenFrom i h (DWorld.init.runQ h).1 ++ rest = pushedTo i h ∧
      (DWorld.init.runQ (h ++ [(i, .len)])).1 = (DWorld.init.runQ h).1 ++ [.num rest.length] := by
  suffices H : ∀ (s : Nat → List T), s i ++ pushedTo i h = takenFrom i h (Deque.run s (h.map (fun o => (o.1, o.2.toDeque)))).1 ++
      (Deque.run s (h.map (fun o => (o.1, o.2.toDeque)))).2 i by
    refine ⟨(Deque.run (fun _ => []) (h.map (fun o => (o.1, o.2.toDeque)))).2 i, ?_, ?_⟩
    · rw [C36_history, ← H]; rfl
    · rw [C36_history, C36_history, List.map_append]
      generalize h.map (fun o => (o.1, o.2.toDeque)) = h'
      generalize (fun _ => [] : Nat → List T) = s
      clear H hp
      induction h' generalizing s with
      | nil => simp [Deque.run, Deque.step, QOp.toDeque]
      | cons o h' ih => simp only [List.cons_append, Deque.run, ih]
  induction h with
  | nil => intro s; simp [pushedTo, takenFrom, Deque.run]
  | cons o h ih =>
    intro s
    obtain ⟨j, op⟩ := o
    have hp' : ∀ o ∈ h, o.1 = i → o.2.Plain := fun o ho => hp o (by simp [ho])
    have IH := ih hp'
    by_cases hj : j = i
    · subst hj
      have pl := hp (j, op) (by simp) rfl
      have IH' := IH (fun k => if k = j then (Deque.step (s j) op.toDeque).2 else s k)
      simp only [if_true] at IH'
      cases op <;> simp only [QOp.Plain] at pl <;>
        simp only [List.map_cons, Deque.run, QOp.toDeque, pushedTo, Deque.step] at IH' ⊢
      case pushBack v => simp only [takenFrom, if_true]; rw [← IH']; simp
      case popFront =>
        cases hs : s j with
        | nil => simp only [hs, takenFrom] at IH' ⊢; exact IH'
        | cons v r => simp only [hs, takenFrom, if_true] at IH' ⊢; rw [List.cons_append, IH', List.cons_append]
      case tryPopFront =>
        cases hs : s j with
        | nil => simp only [hs, takenFrom] at IH' ⊢; exact IH'
        | cons v r => simp only [hs, takenFrom, if_true] at IH' ⊢; rw [List.cons_append, IH', List.cons_append]
      case front =>
        cases hs : s j with
        | nil => simp only [hs, takenFrom] at IH' ⊢; exact IH'
        | cons v r => simp only [hs, takenFrom] at IH' ⊢; exact IH'
      case back =>
        cases hs : (s j).getLast? with
        | none =>
          have : s j = [] := by simpa using hs
          simp only [hs, takenFrom] at IH' ⊢; rw [this]; exact IH'
        | some v => simp only [hs, takenFrom] at IH' ⊢; exact IH'
      case len => simp only [takenFrom]; exact IH'
      case isEmpty => simp only [takenFrom]; exact IH'
    · have IH' := IH (fun k => if k = j then (Deque.step (s j) op.toDeque).2 else s k)
      simp only [if_neg (Ne.symm hj)] at IH'
      have e1 : pushedTo i ((j, op) :: h) = pushedTo i h := by cases op <;> simp [pushedTo, hj]
      have e2 : ∀ (b : DObs T) os, takenFrom i ((j, op) :: h) (b :: os) = takenFrom i h os := by
        intro b os
        cases op <;> cases b <;> try (first | rfl | simp [takenFrom, hj]; done)
        rename_i ok; cases ok <;> first | rfl | simp [takenFrom, hj]
      simp only [List.map_cons, Deque.run, e1, e2]
      exact IH'

/-! ## Concrete case -/

def exQueue : List (Nat × QOp Int) :=
  [(0, .pushBack 1), (1, .pushFront 9), (0, .pushBack 2), (0, .popFront), (1, .popBack), (0, .pushBack 3), (0, .tryPopFront), (0, .front)]

example : (∀ o ∈ exQueue, o.1 = 0 → o.2.Plain) ∧ takenFrom 0 exQueue (DWorld.init.runQ exQueue).1 = [1, 2] ∧ pushedTo 0 exQueue = [1, 2, 3] := by
  refine ⟨?_, by decide +kernel, by decide +kernel⟩
  intro o ho
  simp [exQueue] at ho
  rcases ho with rfl | rfl | rfl | rfl | rfl | rfl | rfl | rfl <;> simp [QOp.Plain]

end Stl4go
