import Verif.Proofs.PQCopySnap
import Verif.Props.HeapMem
/-!
# Property C146: copies of priority queues

`c := *q`, then methods of `q` and of `&c`. `PQOwnRun`: a copy is a queue of its own. `PQCRun`: what copies are. See `Spec/PQCopy.lean`.
-/
namespace Stl4go
variable {T : Type} [GoZero T] [GoOrd T] [LawfulGoOrd T]

/-- C146 in full: a copy of a priority queue is a queue of its own. False, see `C146_counterexample`. -/
def C146_statement : Prop := ∀ (T : Type) [GoZero T] [GoOrd T] [LawfulGoOrd T] (grow : Nat → Nat → Nat) (m : Mem T) (h : List (Nat × PQCOp T)),
  PQCOp.Orders h → PQOwnRun (fun _ => .zero) h ((PQCWorld.init m).run grow h).1

/-- For the counterexample: an empty queue, a copy of it, `Push` to the copy, and its length. -/
def copyPush : List (Nat × PQCOp Int) := [(0, .base .new), (1, .copy 0), (1, .base (.op (.push 5))), (1, .base (.op .len))]

example : ((PQCWorld.init (memOf [])).run (fun _ n => 2 * n) (copyPush ++ [(0, .base (.op .len)), (0, .base (.op .pop)), (1, .base (.op .pop))])).1
    = [.unit, .unit, .unit, .num 0, .num 1, .val 5, .panicked] := by decide +kernel

/-- C146 is false: the element pushed to the copy goes to the queue that was copied. -/
theorem C146_counterexample : ¬ C146_statement := by
  intro h
  have h1 := h Int (fun _ n => 2 * n) (memOf []) copyPush (by
    intro i less hm
    simp [copyPush] at hm)
  have h2 : ((PQCWorld.init (memOf [])).run (fun _ n => 2 * n) copyPush).1 = [.unit, .unit, .unit, .num 0] := by decide +kernel
  rw [h2] at h1
  unfold copyPush at h1
  cases h1 with
  | base _ _ _ _ q _ _ a1 h1 =>
    cases a1
    cases h1 with
    | copy _ _ _ _ _ h1 =>
      cases h1 with
      | base _ _ _ _ q _ _ a2 h1 =>
        cases a2 with
        | op _ _ _ _ q' a2 =>
          cases h1 with
          | base _ _ _ _ q _ _ a3 h1 =>
            cases a2 with
            | push _ _ _ hp =>
              simp only [if_true] at a3
              generalize hn : PQObs.num 0 = ob at a3
              cases a3 with
              | op _ _ _ _ _ a3 =>
                cases a3
                rw [hp.length_eq] at hn
                cases hn

/-- C146, exactly: what copies are, in every history. -/
theorem C146_exact_partial (grow : Nat → Nat → Nat) (m : Mem T) (h : List (Nat × PQCOp T)) (ho : PQCOp.Orders h) :
    ∃ s, PQCRun grow PQCSpec.init h ((PQCWorld.init m).run grow h).1 s := by
  obtain ⟨s, h1, _⟩ := (PQCInv.init m).run grow h ho
  exact ⟨s, h1⟩

/-- C146 for histories in which copies are only used as snapshots: a copy is a queue of its own as long as nothing is pushed to it or popped from it,
and its `Top` is not read once the copied queue was pushed to or popped from. -/
theorem C146_snapshots_partial (grow : Nat → Nat → Nat) (m : Mem T) (h : List (Nat × PQCOp T)) (ho : PQCOp.Orders h)
    (hs : PQCOp.Snapshots 0 (fun _ => .zero) h) : PQOwnRun (fun _ => .zero) h ((PQCWorld.init m).run grow h).1 := by
  obtain ⟨s, h1⟩ := C146_exact_partial grow m h ho
  exact SnapInv.run grow h1 SnapInv.init hs

/-- For the examples: a copy kept as a snapshot, and a copy of the copy. -/
def copyDemo : List (Nat × PQCOp Int) :=
  [(0, .base (.newOf [3, 1, 2])), (1, .copy 0), (1, .base (.op .top)), (2, .copy 1), (0, .base (.op .clear)), (2, .base (.op .top)),
   (0, .base (.op (.push 9))), (1, .base (.op .len)), (0, .base (.op .len)), (1, .base (.op .clear)), (1, .base (.op .isEmpty)), (1, .base (.op .top)),
   (2, .base (.op .len)), (1, .base .new), (1, .base (.op (.push 4))), (1, .base (.op .pop))]

example : PQCOp.Orders copyDemo ∧ PQCOp.Snapshots 0 (fun _ => .zero) copyDemo := by
  refine ⟨?_, ?_⟩
  · intro i less h
    simp [copyDemo] at h
  · simp [copyDemo, PQCOp.Snapshots, PQCOp.Fair, PQCOp.track, PQTrack.stale]

example : ((PQCWorld.init (memOf [])).run (fun _ n => 2 * n) copyDemo).1
    = [.unit, .unit, .val 1, .unit, .unit, .val 1, .unit, .num 3, .num 1, .unit, .flag true, .panicked, .num 3, .unit, .unit, .val 4] := by decide +kernel

/-- Outside that condition: `Top` of the copy shows what was pushed to the copied queue, or not, depending on the capacity of the array. -/
def copyTop (xs : List Int) : List (Nat × PQCOp Int) :=
  [(0, .base .new)] ++ xs.map (fun x => (0, .base (.op (.push x)))) ++ [(1, .copy 0), (0, .base (.op (.push 1))), (1, .base (.op .top))]

example : ((PQCWorld.init (memOf [])).run (fun _ n => 2 * n) (copyTop [7, 5])).1.getLast? = some (.val 5) := by decide +kernel
example : ((PQCWorld.init (memOf [])).run (fun _ n => 2 * n) (copyTop [7, 5, 6])).1.getLast? = some (.val 1) := by decide +kernel

omit [LawfulGoOrd T] in
theorem PQCRun.append {grow : Nat → Nat → Nat} {h2 : List (Nat × PQCOp T)} {s2 : PQCSpec T} :
    ∀ (h1 : List (Nat × PQCOp T)) {s : PQCSpec T} {obs : List (PQObs T)}, PQCRun grow s (h1 ++ h2) obs s2 → ∃ s1, PQCRun grow s1 h2 (obs.drop h1.length) s2
  | [], s, _, h => ⟨s, h⟩
  | _ :: h1, _, _, h => by
    cases h with
    | cons _ _ _ ob s1 _ obs _ _ h => exact PQCRun.append h1 h

omit [LawfulGoOrd T] in
theorem PQCRun.uncons {grow : Nat → Nat → Nat} {s s2 : PQCSpec T} {i : Nat} {op : PQCOp T} {ops : List (Nat × PQCOp T)} {obs : List (PQObs T)}
    (h : PQCRun grow s ((i, op) :: ops) obs s2) : ∃ ob s1 obs1, obs = ob :: obs1 ∧ PQCStep grow s i op ob s1 ∧ PQCRun grow s1 ops obs1 s2 := by
  cases h with
  | cons _ _ _ ob s1 _ obs _ h1 h => exact ⟨ob, s1, obs, rfl, h1, h⟩

/-- C146 fails after every history: an element pushed to a copy adds to the copied queue, and not to the copy. -/
theorem C146_shares_partial (grow : Nat → Nat → Nat) (m : Mem T) (h : List (Nat × PQCOp T)) (ho : PQCOp.Orders h) (i j : Nat) (hij : i ≠ j) (xs : List T) (v : T) :
    ((PQCWorld.init m).run grow (h ++ [(j, .base (.newOf xs)), (i, .copy j), (i, .base (.op (.push v))), (i, .base (.op .len)), (j, .base (.op .len))])).1.drop h.length
      = [.unit, .unit, .unit, .num xs.length, .num (xs.length + 1)] := by
  obtain ⟨s9, hr⟩ := C146_exact_partial grow m
    (h ++ [(j, .base (.newOf xs)), (i, .copy j), (i, .base (.op (.push v))), (i, .base (.op .len)), (j, .base (.op .len))]) (by
      intro k less hm
      rcases List.mem_append.1 hm with hm | hm
      · exact ho k less hm
      · simp at hm)
  obtain ⟨s, hr⟩ := hr.append h
  generalize ((PQCWorld.init m).run grow _).1.drop h.length = obs at hr ⊢
  obtain ⟨b1, s1, o1, rfl, st1, hr⟩ := hr.uncons
  obtain ⟨b2, s2, o2, rfl, st2, hr⟩ := hr.uncons
  obtain ⟨b3, s3, o3, rfl, st3, hr⟩ := hr.uncons
  obtain ⟨b4, s4, o4, rfl, st4, hr⟩ := hr.uncons
  obtain ⟨b5, s5, o5, rfl, st5, hr⟩ := hr.uncons
  have ho5 : o5 = [] := by cases hr; rfl
  subst ho5
  -- the constructor
  obtain ⟨q, hb1, hq, hs1⟩ : ∃ q : List T, b1 = .unit ∧ q.length = xs.length ∧ s1 = s.add j (.queue GoOrd.lt q [] []) := by
    cases st1 with
    | make _ l q hm =>
      cases hm with
      | newOf _ _ hp _ => exact ⟨q, rfl, hp.length_eq, rfl⟩
  have v1 : s1.var j = some s.next := by rw [hs1]; simp [PQCSpec.add]
  have w1 : s1.view s.next = .queue GoOrd.lt q [] [] := by rw [hs1]; exact s.add_new j _
  have n1 : s1.next = s.next + 1 := by rw [hs1]; rfl
  -- the copy
  obtain ⟨hb2, hs2⟩ : b2 = .unit ∧ s2 = s1.add i (.copy s.next 0 q.length) := by
    cases st2 with
    | copyZero _ hj => rw [v1] at hj; cases hj
    | copyQueue _ x l q' e past hj hx =>
      rw [v1] at hj; cases hj
      rw [w1] at hx; cases hx
      exact ⟨rfl, rfl⟩
    | copyCopy _ x k a n hj hx =>
      rw [v1] at hj; cases hj
      rw [w1] at hx; cases hx
  have v2i : s2.var i = some s1.next := by rw [hs2]; simp [PQCSpec.add]
  have v2j : s2.var j = some s.next := by rw [hs2]; simp [PQCSpec.add, Ne.symm hij, v1]
  have w2i : s2.view s1.next = .copy s.next 0 q.length := by rw [hs2]; exact s1.add_new i _
  have w2j : s2.view s.next = .queue GoOrd.lt q [] [] := by rw [hs2, s1.add_view i _ (by omega)]; exact w1
  -- Push
  obtain ⟨q', e', past', hb3, hq', hs3⟩ : ∃ q' e' past', b3 = PQObs.unit ∧ q'.length = q.length + 1 ∧ s3 = s2.set s.next (.queue GoOrd.lt q' e' past') := by
    cases st3 with
    | zero _ _ hi => rw [v2i] at hi; cases hi
    | make _ l q0 hm => cases hm
    | queue x _ _ l q0 e past q' hi hx =>
      rw [v2i] at hi; cases hi
      rw [w2i] at hx; cases hx
    | push x k a n _ l q0 e past q' hi hx hk hp =>
      rw [v2i] at hi; cases hi
      rw [w2i] at hx; cases hx
      rw [w2j] at hk; cases hk
      cases hp with
      | push _ _ _ hp => exact ⟨q', _, _, rfl, hp.length_eq, rfl⟩
  have v3i : s3.var i = some s1.next := by rw [hs3]; exact v2i
  have v3j : s3.var j = some s.next := by rw [hs3]; exact v2j
  have w3i : s3.view s1.next = .copy s.next 0 q.length := by
    rw [hs3]
    have : s1.next ≠ s.next := by omega
    simp [PQCSpec.set, this, w2i]
  have w3j : s3.view s.next = .queue GoOrd.lt q' e' past' := by rw [hs3]; simp [PQCSpec.set]
  -- Len of the copy
  obtain ⟨hb4, hs4⟩ : b4 = .num q.length ∧ s4 = s3 := by
    cases st4 with
    | zero _ _ hi => rw [v3i] at hi; cases hi
    | make _ l q0 hm => cases hm
    | queue x _ _ l q0 e past q' hi hx =>
      rw [v3i] at hi; cases hi
      rw [w3i] at hx; cases hx
    | len x k a n hi hx =>
      rw [v3i] at hi; cases hi
      rw [w3i] at hx; cases hx
      exact ⟨rfl, rfl⟩
  subst hs4
  -- Len of the copied queue
  have hb5 : b5 = .num (q.length + 1) := by
    cases st5 with
    | zero _ _ hi => rw [v3j] at hi; cases hi
    | make _ l q0 hm => cases hm
    | queue x _ _ l q0 e past q' hi hx hp =>
      rw [v3j] at hi; cases hi
      rw [w3j] at hx; cases hx
      cases hp
      rw [hq']
    | len x k a n hi hx =>
      rw [v3j] at hi; cases hi
      rw [w3j] at hx; cases hx
  rw [hb1, hb2, hb3, hb4, hb5, hq]

end Stl4go
