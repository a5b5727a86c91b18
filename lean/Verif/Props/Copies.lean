import Verif.Proofs.Copies
/-!
# Property C141: copies of `SList` and `DList` structs (`/repo/slist.go`, `/repo/dlist.go`)

`SListOf` and `DListOf` return structs, so `b := a` copies one; the nodes are shared. Histories use any number of lists, and copy any of them over any other.
-/
namespace Stl4go
variable {T : Type}

/-- The full statement: copies are sequences of their own. It is false of the code. -/
def C141_statement : Prop :=
  (∀ h : List (CStmt (LOp Int)), (LWorld.init.runC h).1 = (LSeq.runC (fun _ => []) h).1) ∧
  (∀ h : List (CStmt (DOp Int)), (DWorld.init.runC h).1 = (Deque.runC (fun _ => []) h).1)

/-- `b := a; a.PushBack(2); b.Values()` panics. -/
def slistCopied : List (CStmt (LOp Int)) := [.op 0 (.make [1]), .copy 1 0, .op 0 (.pushBack 2), .op 1 .values]

/-- `b := a; b.PopFront(); b.PopFront(); a.PopFront()` gives 0, which was never in a list. -/
def dlistCopied : List (CStmt (DOp Int)) := [.op 0 (.make [1, 2]), .copy 1 0, .op 1 .popFront, .op 1 .popFront, .op 0 .popFront]

/-- C141 is false of the code: copies of an `SList` and of a `DList` are not lists of their own. -/
theorem C141_counterexample : ¬ C141_statement ∧
    (LWorld.init.runC slistCopied).1 = [.unit, .unit, .unit, .panicked] ∧ (LSeq.runC (fun _ => []) slistCopied).1 = [.unit, .unit, .unit, .list [1]] ∧
    (DWorld.init.runC dlistCopied).1 = [.unit, .unit, .val 1, .val 2, .val 0] ∧ (Deque.runC (fun _ => []) dlistCopied).1 = [.unit, .unit, .val 1, .val 2, .val 1] := by
  have a1 : (LWorld.init.runC slistCopied).1 = [.unit, .unit, .unit, .panicked] := by decide +kernel
  have a2 : (LSeq.runC (fun _ => []) slistCopied).1 = [.unit, .unit, .unit, .list [1]] := by decide +kernel
  refine ⟨fun hs => ?_, a1, a2, by decide +kernel, by decide +kernel⟩
  have := hs.1 slistCopied
  rw [a1, a2] at this
  cases this

/-- C141, what holds for `SList`: if no list is used with `PushBack` or `Reverse` while another variable has the same nodes, copies are lists of their own; `PushFront`, `PopFront`,
`Clear` and everything else may be used on both. -/
theorem C141_slist_partial [GoZero T] (h : List (CStmt (LOp T))) (hf : LSeq.Fair Alias.start (fun _ => []) h) :
    (LWorld.init.runC h).1 = (LSeq.runC (fun _ => []) h).1 := by
  obtain ⟨_, e, _⟩ := LShInv.run h LShInv.init hf
  exact e

/-- C141, what holds for `DList`: if no list is changed while another variable has the same nodes, copies are lists of their own. A list that nothing was ever pushed to has no
nodes; taking from an empty list changes nothing. -/
theorem C141_dlist_partial [GoZero T] (h : List (CStmt (DOp T))) (hf : Deque.Fair DShare.start (fun _ => []) h) :
    (DWorld.init.runC h).1 = (Deque.runC (fun _ => []) h).1 := by
  obtain ⟨_, e, _⟩ := DShInv.run h DShInv.init hf
  exact e

/-- C141: what the condition on `SList`s excludes is wrong every time: after `PushBack` to a list that shares its nodes with another, that one's `Len` does not count the new
element, iterating over it shows it, and `Values` panics. -/
theorem C141_slist_pushBack_partial [GoZero T] (h : List (CStmt (LOp T))) (hf : LSeq.Fair Alias.start (fun _ => []) h) (i k : Nat) (hne : i ≠ k)
    (hik : LSeq.aliases Alias.start (fun _ => []) h i k = true) (v : T) :
    ((((LWorld.init.runC h).2.stmt (.op i (.pushBack v))).2.stmt (.op k .values)).1 = .panicked) ∧
    ((((LWorld.init.runC h).2.stmt (.op i (.pushBack v))).2.stmt (.op k .iterate)).1 = .list ((LSeq.runC (fun _ => []) h).2 k ++ [v])) ∧
    ((((LWorld.init.runC h).2.stmt (.op i (.pushBack v))).2.stmt (.op k .len)).1 = .num ((LSeq.runC (fun _ => []) h).2 k).length) := by
  obtain ⟨_, _, hw⟩ := LShInv.run h LShInv.init hf
  exact hw.stale hik hne v

/-- C141: what the condition on `DList`s excludes: after an operation on a list that shares its nodes with another, iterating over that one shows the other's new elements, while its
`Len` is as before. -/
theorem C141_dlist_shared_partial [GoZero T] (h : List (CStmt (DOp T))) (hf : Deque.Fair DShare.start (fun _ => []) h) (i k : Nat) (hne : i ≠ k)
    (hik : (DShare.start.run h).al i k = true) (o : DOp T) (hm : ∀ vs, o ≠ .make vs) :
    ((((DWorld.init.runC h).2.stmt (.op i o)).2.stmt (.op k .values)).1 = .list (Deque.step ((Deque.runC (fun _ => []) h).2 k) o).2) ∧
    ((((DWorld.init.runC h).2.stmt (.op i o)).2.stmt (.op k .len)).1 = .num ((Deque.runC (fun _ => []) h).2 k).length) := by
  obtain ⟨_, _, hw⟩ := DShInv.run h DShInv.init hf
  exact hw.stale hik hne o hm

/-! ## Concrete cases -/

/-- Both copies are pushed to at the front and popped; one is then made empty, and the other, alone now, is pushed to at the back. -/
def slistFair : List (CStmt (LOp Int)) :=
  [.op 0 (.make [1, 2]), .copy 1 0, .op 0 (.pushFront 7), .op 1 .popFront, .op 0 .values, .op 1 .values, .op 1 .clear, .op 0 (.pushBack 9), .op 0 .values, .op 1 .values]

example : LSeq.Fair Alias.start (fun _ => []) slistFair := by
  simp [slistFair, LSeq.Fair, LOp.relinks, LSeq.alias, LSeq.stmt, LSeq.step, upd, LOp.renews, Alias.Alone, Alias.drop, Alias.join, Alias.start]
  grind

example : (LWorld.init.runC slistFair).1 = [.unit, .unit, .unit, .val 1, .list [7, 1, 2], .list [2], .unit, .unit, .list [7, 1, 2, 9], .list []] := by decide +kernel

example : LSeq.aliases Alias.start (fun _ => []) (slistFair.take 6) 0 1 = true := by decide +kernel

/-- A copy that is only read, and goes away before the original changes. -/
def dlistFair : List (CStmt (DOp Int)) :=
  [.op 0 (.make [1, 2]), .copy 1 0, .op 1 .values, .op 1 .len, .op 1 (.make [5]), .op 0 (.pushBack 3), .op 1 .popFront, .op 0 .values, .copy 2 0, .op 2 .back]

example : Deque.Fair DShare.start (fun _ => []) dlistFair := by
  simp [dlistFair, Deque.Fair, DOp.writes, DShare.stmt, DShare.start, Deque.stmt, Deque.step, upd, Alias.Alone, Alias.drop, Alias.join, Alias.start]
  grind

example : (DWorld.init.runC dlistFair).1 = [.unit, .unit, .list [1, 2], .num 2, .unit, .unit, .val 5, .list [1, 2, 3], .unit, .val 3] := by decide +kernel

example : (DShare.start.run dlistFair).al 0 2 = true ∧ (DShare.start.run dlistFair).al 0 1 = false := by decide +kernel

end Stl4go
