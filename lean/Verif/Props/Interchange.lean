import Verif.Proofs.Interchange
import Verif.Props.Stack
import Verif.Props.Vector
import Verif.Props.DListQueue
import Verif.Props.SList
import Verif.Props.BuiltinSet
import Verif.Props.SkipListSet
/-!
# Property C149: containers that do the same job

What a client does with a stack, a queue or a set, and the methods of each container that do it: `Spec/Interchange.lean`.
-/
namespace Stl4go

section
variable {T : Type} [GoZero T]

/-- C149: as a stack, `Stack`, `Vector` at its end, `DList` and `DListQueue` at either end, and `SList` at its front (which has no `TryPop`)
show a client the same results, panics included, in every history of any number of them. -/
theorem C149_stacks (grow : Nat → Nat → Nat) (m : Mem T) (h : List (Nat × UseStack T)) :
    let shown := ((VWorld.init m).runStacks grow (h.map (fun o => (o.1, o.2.stack)))).1
    ((VWorld.init m).run grow (h.map (fun o => (o.1, o.2.vector)))).1 = shown ∧
    (DWorld.init.run (h.map (fun o => (o.1, o.2.dlistBack)))).1 = shown ∧ (DWorld.init.run (h.map (fun o => (o.1, o.2.dlistFront)))).1 = shown ∧
    (DWorld.init.runQ (h.map (fun o => (o.1, o.2.queueBack)))).1 = shown ∧ (DWorld.init.runQ (h.map (fun o => (o.1, o.2.queueFront)))).1 = shown ∧
    ∀ g, h.map (fun o => (o.1, o.2.slist)) = g.map (fun o => (o.1, some o.2)) → (LWorld.init.run g).1 = shown := by
  have hv : ∀ o ∈ h.map (fun o => (o.1, o.2.vector)), o.2.Valid := by
    intro o ho
    obtain ⟨⟨i, o⟩, _, rfl⟩ := List.mem_map.1 ho
    cases o <;> trivial
  have hb := KSeq.run_queueBack h (fun _ => [])
  have hf := KSeq.run_queueFront h (fun _ => [])
  refine ⟨?_, ?_, ?_, ?_, ?_, fun g e => ?_⟩ <;> rw [C49_history]
  · rw [(C40_history grow m _ hv).1]
    exact KSeq.run_vector h (fun _ => [])
  · rw [C33_history]; exact hb
  · rw [C33_history]; exact hf
  · rw [C36_history, List.map_map]; exact hb
  · rw [C36_history, List.map_map]; exact hf
  · rw [C37_history]; exact KSeq.run_slist h g _ e

/-- C149: as a queue, `DListQueue` and `DList`, either way round, and `SList` (which has no `TryPop`) show a client the same results. -/
theorem C149_queues (h : List (Nat × UseQueue T)) :
    let shown := (DWorld.init.runQ (h.map (fun o => (o.1, o.2.queue)))).1
    (DWorld.init.runQ (h.map (fun o => (o.1, o.2.reversed)))).1 = shown ∧
    (DWorld.init.run (h.map (fun o => (o.1, o.2.dlist)))).1 = shown ∧ (DWorld.init.run (h.map (fun o => (o.1, o.2.dlistReversed)))).1 = shown ∧
    ∀ g, h.map (fun o => (o.1, o.2.slist)) = g.map (fun o => (o.1, some o.2)) → (LWorld.init.run g).1 = shown := by
  have hr := Deque.run_reversed h (fun _ => [])
  refine ⟨?_, ?_, ?_, fun g e => ?_⟩ <;> rw [C36_history, List.map_map]
  · rw [C36_history, List.map_map]; exact hr
  · rw [C33_history]; rfl
  · rw [C33_history]; exact hr
  · rw [C37_history]; exact Deque.run_slist h g _ e

end

section
variable {K : Type} [GoOrd K] [LawfulGoOrd K]

/-- C149: as a set, a `BuiltinSet` and a `SkipListSet` made from the same elements show a client the same flags, sizes and counts, and the
same elements in some order, whatever the runtime does with its maps and whatever the generator draws. -/
theorem C149_sets (rt : MapRt K) (hrt : rt.Fair) (elements : List (Nat × K)) (h : List (UseSet K)) :
    ∃ s s' shown shown', newSkipListSetOf elements = .ret s ∧ SLSet.run (.ordered inferInstance) s (h.map UseSet.sorted) = .ret (s', shown) ∧
      MWorld.empty.run rt (.setOf (elements.map (·.2)) :: h.map (UseSet.builtin 0)) = .ref (some 0) :: shown' ∧ SameRun shown shown' := by
  obtain ⟨s, s', h1, h2⟩ := C31_setOf elements (h.map UseSet.sorted)
  have legal : ∀ (ops : List (UseSet K)) (st : BState K), 0 < st.next → st.Legal (ops.map (UseSet.builtin 0)) := by
    intro ops
    induction ops with
    | nil => intro _ _; trivial
    | cons op ops ih =>
      intro st hn
      refine ⟨by cases op <;> exact hn, ih _ ?_⟩
      cases op <;> exact hn
  have hm := C75_history rt hrt (.setOf (elements.map (·.2)) :: h.map (UseSet.builtin 0)) ⟨trivial, legal h _ (by simp [BState.step, BState.new])⟩
  obtain ⟨o, os, e, ho, hos⟩ := hm
  simp only [BState.Ok, BState.empty] at ho
  subst ho
  refine ⟨s, s', _, os, h1, h2, e, sameRun_run 0 h ?_ hos⟩
  have := (lists_addN (elements.map (·.2)) (S := fun _ : K => false) Lists.nil).1
  simpa [BState.step, BState.new, BState.empty] using this

end

/-! ## Examples -/

/-- Two stacks, the second popped when empty. -/
def exStacks : List (Nat × UseStack Int) :=
  [(0, .new), (1, .new), (0, .push 3), (0, .push 4), (1, .pop), (0, .top), (0, .pop), (1, .push 9), (0, .len), (0, .pop), (0, .isEmpty)]

def exStacksSlist : List (Nat × LOp Int) :=
  [(0, .make []), (1, .make []), (0, .pushFront 3), (0, .pushFront 4), (1, .popFront), (0, .front), (0, .popFront), (1, .pushFront 9), (0, .len), (0, .popFront), (0, .isEmpty)]

example : exStacks.map (fun o => (o.1, o.2.slist)) = exStacksSlist.map (fun o => (o.1, some o.2)) := rfl

example : (LWorld.init.run exStacksSlist).1 = [.unit, .unit, .unit, .unit, .panicked, .val 4, .val 4, .unit, .num 1, .val 3, .flag true] := by decide +kernel

example : (DWorld.init.run (exStacks.map (fun o => (o.1, o.2.dlistBack)))).1 =
    [.unit, .unit, .unit, .unit, .panicked, .val 4, .val 4, .unit, .num 1, .val 3, .flag true] := by decide +kernel

/-- A queue. -/
def exUseQueue : List (Nat × UseQueue Int) := [(0, .new), (0, .push 3), (0, .push 4), (0, .last), (0, .pop), (0, .tryPop), (0, .tryPop), (0, .first)]

example : (DWorld.init.runQ (exUseQueue.map (fun o => (o.1, o.2.reversed)))).1 =
    [.unit, .unit, .unit, .val 4, .val 3, .try_ 4 true, .try_ 0 false, .panicked] := by decide +kernel

/-- A set; the elements come in different orders. -/
def exUseSet : List (UseSet Int) := [.insertN [(0, 5), (7, 1), (1, 5)], .insert 3 2, .insert 0 2, .keys, .removeN [5, 6], .has 5, .len]

example : (MWorld.empty.run (zigzag : MapRt Int) (.setOf [4] :: exUseSet.map (UseSet.builtin 0))) =
    [.ref (some 0), .num 2, .flag true, .flag false, .keys [4, 5, 1, 2], .num 1, .flag false, .num 3] := by decide +kernel

example : (SSet.run GoOrd.lt [4] (exUseSet.map UseSet.sorted)).1 = [.num 2, .flag true, .flag false, .list [1, 2, 4, 5], .num 1, .flag false, .num 3] := by
  decide +kernel

/-- The observations are told apart. -/
example : ¬ SameObs (.list [3]) (.keys [(4 : Int)]) := by
  intro h
  have := h.2 3
  revert this
  decide

end Stl4go
