import Verif.Proofs.DListCallback
import Verif.Proofs.DListWalk
import Verif.Props.DList
/-!
# Properties C115, C116: the `ForEach` methods of `/repo/dlist.go` with callbacks that use the list

The callback is any program over the methods of the list it is called from (`DProg`); the history before the call is any history on any
number of lists.
-/
namespace Stl4go
variable {T σ : Type} [GoZero T]

/-- The call ended like the specification, and whatever the client does next it sees the elements the specification gives, and the other
lists as they were. -/
def DWorld.EndsLike {α : Type} (w : DWorld T) (i : Nat) (s : Nat → List T) : Res (DS T) α → Res (DWalk T) α → Prop
  | .ok a st, .ok b r => a = b ∧ w.Becomes i st s r.items
  | .panic st, .panic r => w.Becomes i st s r.items
  | .diverge, .diverge => True
  | _, _ => False

theorem WInv.endsLike {α : Type} {w : DWorld T} {s : Nat → List T} {ids : Nat → List Nat} (hw : WInv w s ids) (i : Nat) {r : Res (DS T) α}
    {r' : Res (DWalk T) α}
    (h : let P := fun st (x : DWalk T) => ∃ ids', DInv st.heap st.l ids' x.items ∧ DFrame w.heap st.heap (foot (w.vars i) (ids i)) ∧
      ∀ x ∈ foot st.l ids', x ∈ foot (w.vars i) (ids i) ∨ w.heap.length ≤ x
      Fits P P r r') : w.EndsLike i s r r' := by
  have key : ∀ (st : DS T) (x : DWalk T), (∃ ids', DInv st.heap st.l ids' x.items ∧ DFrame w.heap st.heap (foot (w.vars i) (ids i)) ∧
      ∀ x ∈ foot st.l ids', x ∈ foot (w.vars i) (ids i) ∨ w.heap.length ≤ x) → w.Becomes i st s x.items := by
    rintro st x ⟨ids', a1, a2, a3⟩ ops
    have W : WInv { heap := st.heap, vars := fun j => if j = i then st.l else w.vars j } (fun j => if j = i then x.items else s j)
        (fun j => if j = i then ids' else ids j) := by
      have hdisj : ∀ j, j ≠ i → ∀ q ∈ foot (w.vars j) (ids j), q ∉ foot st.l ids' := by
        intro j hj q hq hc
        rcases a3 q hc with h1 | h1
        · exact hw.disj j i hj q hq h1
        · have := (hw.inv j).bound q hq; omega
      refine ⟨fun j => ?_, fun j k hjk q hq => ?_⟩
      · by_cases hj : j = i
        · simpa [hj] using a1
        · simp only [hj, if_false]; exact (hw.inv j).frame a2 (fun q hq hc => hw.disj j i hj q hq hc)
      · by_cases hj : j = i
        · have hk : k ≠ i := fun e => hjk (by rw [hj, e])
          simp only [hj, if_true] at hq
          simp only [hk, if_false]
          exact fun hc => hdisj k hk q hc hq
        · simp only [hj, if_false] at hq
          by_cases hk : k = i
          · simp only [hk, if_true]; exact hdisj j hj q hq
          · simp only [hk, if_false]; exact hw.disj j k hjk q hq
    obtain ⟨_, a, _⟩ := WInv.run ops W
    exact a
  cases r <;> cases r' <;> first | exact h.elim | trivial | exact ⟨h.1, key _ _ h.2⟩ | exact key _ _ h

/-- C115: `ForEachMutableIf` with a callback that does anything with the list (except assigning a new list to the variable). -/
theorem C115_forEachMutableIf (h : List (Nat × DOp T)) (i : Nat) (cb : σ → DProg T (σ × Bool)) (hk : ∀ t, (cb t).Keeps) (fuel : Nat) (t : σ) :
    let w := (DWorld.init.run h).2
    let s := (Deque.run (fun _ => []) h).2
    w.EndsLike i s (DL.forEachMutableIfC fuel cb t ⟨w.heap, w.vars i⟩) (DWalk.run fuel cb t (s i)) := by
  obtain ⟨ids, _, hw⟩ := WInv.run h (WInv.init (T := T))
  exact hw.endsLike i ((hw.inv i).forEachMutableIfC hk fuel t)

/-- C115: the same for `ForEachMutable`. -/
theorem C115_forEachMutable (h : List (Nat × DOp T)) (i : Nat) (cb : σ → DProg T σ) (hk : ∀ t, (cb t).Keeps) (fuel : Nat) (t : σ) :
    let w := (DWorld.init.run h).2
    let s := (Deque.run (fun _ => []) h).2
    w.EndsLike i s (DL.forEachMutableC fuel cb t ⟨w.heap, w.vars i⟩) (DWalk.run fuel (goOn cb) t (s i)) := by
  have e : DL.forEachMutableC fuel cb t = DL.forEachMutableIfC fuel (goOn cb) t := by
    simp only [DL.forEachMutableC, DL.forEachMutableIfC, DL.forEachMutableLoopC_eq]
  rw [e]
  exact C115_forEachMutableIf h i (goOn cb) (fun t => (hk t).bind (fun _ => trivial)) fuel t

/-- C115: the same for `ForEachIf`. -/
theorem C115_forEachIf (h : List (Nat × DOp T)) (i : Nat) (cb : σ → T → DProg T (σ × Bool)) (hk : ∀ t v, (cb t v).Keeps) (fuel : Nat) (t : σ) :
    let w := (DWorld.init.run h).2
    let s := (Deque.run (fun _ => []) h).2
    w.EndsLike i s (DL.forEachIfC fuel cb t ⟨w.heap, w.vars i⟩) (DWalk.run fuel (byValue cb) t (s i)) := by
  have e : DL.forEachIfC fuel cb t = DL.forEachMutableIfC fuel (byValue cb) t := by
    simp only [DL.forEachIfC, DL.forEachMutableIfC, DL.forEachIfLoopC_eq]
  rw [e]
  exact C115_forEachMutableIf h i (byValue cb) hk fuel t

/-- C115: the same for `ForEach`. -/
theorem C115_forEach (h : List (Nat × DOp T)) (i : Nat) (cb : σ → T → DProg T σ) (hk : ∀ t v, (cb t v).Keeps) (fuel : Nat) (t : σ) :
    let w := (DWorld.init.run h).2
    let s := (Deque.run (fun _ => []) h).2
    w.EndsLike i s (DL.forEachC fuel cb t ⟨w.heap, w.vars i⟩) (DWalk.run fuel (goOn (byValue cb)) t (s i)) := by
  have e : DL.forEachC fuel cb t = DL.forEachMutableC fuel (byValue cb) t := by
    simp only [DL.forEachC, DL.forEachMutableC, DL.forEachLoopC_eq]
  rw [e]
  exact C115_forEachMutable h i (byValue cb) hk fuel t

/-! ## Callbacks that push or clear -/

omit [GoZero T] in
theorem pushes_keeps {α : Type} (vs : List T) (p : DProg T α) (hp : p.Keeps) : (pushes vs p).Keeps := by
  induction vs with
  | nil => exact hp
  | cons v vs ih => exact ⟨by simp, fun _ => ih⟩

theorem endsLike_ok {α : Type} {w : DWorld T} {i : Nat} {s : Nat → List T} {r : Res (DS T) α} {a : α} {x : DWalk T}
    (h : w.EndsLike i s r (.ok a x)) : ∃ st, r = .ok a st ∧ w.Becomes i st s x.items := by
  cases r with
  | ok b st => obtain ⟨rfl, hb⟩ := h; exact ⟨st, rfl, hb⟩
  | panic st => exact h.elim
  | diverge => exact h.elim

theorem endsLike_panic {α : Type} {w : DWorld T} {i : Nat} {s : Nat → List T} {r : Res (DS T) α} {x : DWalk T}
    (h : w.EndsLike i s r (.panic x)) : ∃ st, r = .panic st ∧ w.Becomes i st s x.items := by
  cases r with
  | ok b st => exact h.elim
  | panic st => exact ⟨st, rfl, h⟩
  | diverge => exact h.elim

/-- C115: pushing at the back in `ForEach` makes it a worklist. If the work ends, the call returns, having visited the work in order, and the
work is then the contents of the list; if it does not end, neither does the call. -/
theorem C115_worklist (h : List (Nat × DOp T)) (i : Nat) (g : T → List T) :
    let w := (DWorld.init.run h).2
    let s := (Deque.run (fun _ => []) h).2
    let call := fun fuel => DL.forEachC fuel (fun t v => pushes (g v) (.ret (t ++ [v]))) [] ⟨w.heap, w.vars i⟩
    (∀ vis, Worklist g (s i) vis → ∀ fuel, vis.length < fuel → ∃ st, call fuel = .ok vis st ∧ w.Becomes i st s vis) ∧
    ((∀ vis, ¬ Worklist g (s i) vis) → ∀ fuel, call fuel = .diverge) := by
  intro w s call
  have key : ∀ fuel, w.EndsLike i s (call fuel) (DWalk.run fuel (goOn (byValue (fun t v => pushes (g v) (.ret (t ++ [v]))))) [] (s i)) :=
    fun fuel => C115_forEach h i (fun t v => pushes (g v) (.ret (t ++ [v]))) (fun t v => pushes_keeps _ _ trivial) fuel []
  have hrun : ∀ fuel, DWalk.run fuel (goOn (byValue (fun t v => pushes (g v) (.ret (t ++ [v]))))) [] (s i) =
      if s i = [] then .ok [] ⟨[], .at 0⟩ else match worklist g fuel (s i) with
      | none => .diverge
      | some vis => .ok vis ⟨vis, .at vis.length⟩ := by
    intro fuel
    cases hs : s i with
    | nil => rfl
    | cons v q =>
      have e := DWalk.loop_pushBack g fuel [] (v :: q) []
      simp only [List.nil_append, List.length_nil] at e
      rw [if_neg (by simp)]
      simp only [DWalk.run, e]
      cases worklist g fuel (v :: q) <;> rfl
  refine ⟨fun vis hv fuel hf => ?_, fun hn fuel => ?_⟩
  · have := key fuel
    rw [hrun] at this
    by_cases hs : s i = []
    · rw [hs] at hv
      cases hv
      rw [if_pos hs] at this
      exact endsLike_ok this
    · rw [if_neg hs, worklist_complete hv hf] at this
      exact endsLike_ok this
  · have := key fuel
    rw [hrun] at this
    have hs : s i ≠ [] := fun e => hn [] (by rw [e]; exact .nil)
    have hw : worklist g fuel (s i) = none := by
      cases hx : worklist g fuel (s i) with
      | none => rfl
      | some vis => exact absurd (worklist_sound hx) (hn vis)
    rw [if_neg hs, hw] at this
    show call fuel = .diverge
    revert this
    cases call fuel with
    | ok a st => exact fun h => h.elim
    | panic st => exact fun h => h.elim
    | diverge => exact fun _ => rfl

/-- C115: pushing at the front in `ForEach` does not disturb it: it visits the elements that were there. -/
theorem C115_pushFront (h : List (Nat × DOp T)) (i : Nat) (g : T → T) (fuel : Nat) :
    let w := (DWorld.init.run h).2
    let s := (Deque.run (fun _ => []) h).2
    (s i).length < fuel →
    ∃ st, DL.forEachC fuel (fun t v => .call (.pushFront (g v)) (fun _ => .ret (t ++ [v]))) [] ⟨w.heap, w.vars i⟩ = .ok (s i) st ∧
      w.Becomes i st s (((s i).map g).reverse ++ s i) := by
  intro w s hf
  have key : w.EndsLike i s (DL.forEachC fuel (fun t v => .call (.pushFront (g v)) (fun _ => .ret (t ++ [v]))) [] ⟨w.heap, w.vars i⟩)
      (DWalk.run fuel (goOn (byValue (fun t v => .call (.pushFront (g v)) (fun _ => .ret (t ++ [v]))))) [] (s i)) :=
    C115_forEach h i (fun t v => .call (.pushFront (g v)) (fun _ => .ret (t ++ [v]))) (fun t v => ⟨by simp, fun _ => trivial⟩) fuel []
  have e := DWalk.loop_pushFront g (s i) fuel [] [] hf
  have hrun : DWalk.run fuel (goOn (byValue (fun t v => .call (.pushFront (g v)) (fun _ => .ret (t ++ [v]))))) [] (s i) =
      .ok (s i) ⟨((s i).map g).reverse ++ s i, .at (((s i).map g).reverse ++ s i).length⟩ := by
    revert e
    cases s i with
    | nil => intro _; rfl
    | cons v q => intro e; simpa [DWalk.run] using e
  rw [hrun] at key
  exact endsLike_ok key

/-- C115: clearing the list in `ForEach` does not stop it: it goes on to visit all the elements that were there, and the list ends up empty. -/
theorem C115_clear (h : List (Nat × DOp T)) (i : Nat) (fuel : Nat) :
    let w := (DWorld.init.run h).2
    let s := (Deque.run (fun _ => []) h).2
    (s i).length < fuel →
    ∃ st, DL.forEachC fuel (fun t v => .call .clear (fun _ => .ret (t ++ [v]))) [] ⟨w.heap, w.vars i⟩ = .ok (s i) st ∧ w.Becomes i st s [] := by
  intro w s hf
  have key : w.EndsLike i s (DL.forEachC fuel (fun t v => .call .clear (fun _ => .ret (t ++ [v]))) [] ⟨w.heap, w.vars i⟩)
      (DWalk.run fuel (goOn (byValue (fun t v => .call .clear (fun _ => .ret (t ++ [v]))))) [] (s i)) :=
    C115_forEach h i (fun t v => .call .clear (fun _ => .ret (t ++ [v]))) (fun t v => ⟨by simp, fun _ => trivial⟩) fuel []
  have hrun : ∃ x : DWalk T, x.items = [] ∧ DWalk.run fuel (goOn (byValue (fun t v => .call .clear (fun _ => .ret (t ++ [v]))))) [] (s i) = .ok (s i) x := by
    revert hf
    cases s i with
    | nil => intro _; exact ⟨_, rfl, rfl⟩
    | cons v q =>
      intro hf
      refine ⟨⟨[], .at 0⟩, rfl, ?_⟩
      cases fuel with
      | zero => simp at hf
      | succ fuel =>
        show DWalk.loop _ _ _ _ = _
        rw [DWalk.loop_live _ _ _ _ v rfl]
        simp only [DProg.spec, Deque.step, DCur.after, List.drop_zero]
        cases q with
        | nil =>
          simp only [DWalk.next]
          match fuel, hf with
          | fuel + 1, _ => rw [DWalk.loop_end _ _ _ _ (by simp [DWalk.atEnd])]; rfl
        | cons u q =>
          simp only [DWalk.next]
          rw [DWalk.loop_clear q fuel u _ (by simpa using hf)]
          simp
  obtain ⟨x, hx, e⟩ := hrun
  rw [e] at key
  obtain ⟨st, h1, h2⟩ := endsLike_ok key
  exact ⟨st, h1, by rw [hx] at h2; exact h2⟩

/-! ## C116 -/

/-- C116 as one would like it: a callback of `ForEach` may pop an element of the list at either end, the call then returns normally. -/
def C116_statement : Prop := ∀ (h : List (Nat × DOp Int)) (i : Nat), ∀ pop ∈ [DOp.popFront, DOp.popBack],
  let w := (DWorld.init.run h).2
  ∃ fuel vis st, DL.forEachC fuel (fun t v => .call pop (fun _ => .ret (t ++ [v]))) [] ⟨w.heap, w.vars i⟩ = .ok vis st

/-- C116: `ForEach` with a callback that pops at the front panics on every list with an element: after the first round the loop follows the
link of a node that pop has unlinked. The rest of the list is intact. -/
theorem C116_popFront_panics (h : List (Nat × DOp T)) (i : Nat) (fuel : Nat) :
    let w := (DWorld.init.run h).2
    let s := (Deque.run (fun _ => []) h).2
    s i ≠ [] → ∃ st, DL.forEachC (fuel + 2) (fun t v => .call .popFront (fun _ => .ret (t ++ [v]))) [] ⟨w.heap, w.vars i⟩ = .panic st ∧
      w.Becomes i st s (s i).tail := by
  intro w s hs
  have key : w.EndsLike i s (DL.forEachC (fuel + 2) (fun t v => .call .popFront (fun _ => .ret (t ++ [v]))) [] ⟨w.heap, w.vars i⟩)
      (DWalk.run (fuel + 2) (goOn (byValue (fun t v => .call .popFront (fun _ => .ret (t ++ [v]))))) [] (s i)) :=
    C115_forEach h i (fun t v => .call .popFront (fun _ => .ret (t ++ [v]))) (fun t v => ⟨by simp, fun _ => trivial⟩) (fuel + 2) []
  have hrun : DWalk.run (fuel + 2) (goOn (byValue (fun t v => .call .popFront (fun _ => .ret (t ++ [v]))))) [] (s i) = .panic ⟨(s i).tail, .nil⟩ := by
    revert hs
    cases s i with
    | nil => intro hs; exact absurd rfl hs
    | cons v q =>
      intro _
      show DWalk.loop _ _ _ _ = _
      rw [DWalk.loop_live _ _ _ _ v rfl]
      rfl
  rw [hrun] at key
  exact endsLike_panic key

/-- C116, partial: popping at the back works when the length is even. The call then visits the first half of the list and leaves it in the
list. When the length is odd the element in the middle is popped under the loop and the call panics. Missing for the full statement:
everything that pops the element the loop stands on. -/
theorem C116_popBack_partial (h : List (Nat × DOp T)) (i : Nat) (fuel : Nat) :
    let w := (DWorld.init.run h).2
    let s := (Deque.run (fun _ => []) h).2
    let n := (s i).length
    let r := DL.forEachC fuel (fun t v => .call .popBack (fun _ => .ret (t ++ [v]))) [] ⟨w.heap, w.vars i⟩
    n < fuel →
    (n % 2 = 0 → ∃ st, r = .ok ((s i).take (n / 2)) st ∧ w.Becomes i st s ((s i).take (n / 2))) ∧
    (n % 2 = 1 → ∃ st, r = .panic st ∧ w.Becomes i st s ((s i).take (n / 2))) := by
  intro w s n r hf
  have key : w.EndsLike i s (DL.forEachC fuel (fun t v => .call .popBack (fun _ => .ret (t ++ [v]))) [] ⟨w.heap, w.vars i⟩)
      (DWalk.run fuel (goOn (byValue (fun t v => .call .popBack (fun _ => .ret (t ++ [v]))))) [] (s i)) :=
    C115_forEach h i (fun t v => .call .popBack (fun _ => .ret (t ++ [v]))) (fun t v => ⟨by simp, fun _ => trivial⟩) fuel []
  by_cases hs : s i = []
  · have hn : n = 0 := by simp [n, hs]
    rw [hs] at key
    refine ⟨fun _ => ?_, fun h1 => by omega⟩
    obtain ⟨st, a, b⟩ := endsLike_ok (a := []) (x := ⟨[], .at 0⟩) key
    exact ⟨st, by rw [hs, List.take_nil]; exact a, by rw [hs, List.take_nil]; exact b⟩
  · have e := DWalk.loop_popBack n fuel (s i) [] 0 (by simp [n]) hf
    have hrun : DWalk.run fuel (goOn (byValue (fun t v => .call .popBack (fun _ => .ret (t ++ [v]))))) [] (s i) =
        DWalk.loop (goOn (byValue (fun t v => .call .popBack (fun _ => .ret (t ++ [v]))))) fuel [] ⟨s i, .at 0⟩ := by
      cases hx : s i with
      | nil => exact absurd hx hs
      | cons v q => rfl
    rw [hrun, e] at key
    simp only [List.drop_zero, List.nil_append, Nat.zero_add] at key
    refine ⟨fun h0 => ?_, fun h1 => ?_⟩
    · rw [if_pos h0] at key; exact endsLike_ok key
    · rw [if_neg (by omega)] at key; exact endsLike_panic key

/-- C116 is false. -/
theorem C116_counterexample : ¬ C116_statement := by
  intro hst
  obtain ⟨fuel, vis, st, h1⟩ := hst [(0, .make [1])] 0 .popFront (by simp)
  have key := C115_forEach [(0, .make [(1 : Int)])] 0 (fun t v => .call .popFront (fun _ => .ret (t ++ [v]))) (fun t v => ⟨by simp, fun _ => trivial⟩) fuel []
  simp only [h1] at key
  match fuel with
  | 0 => exact key
  | 1 => exact key
  | fuel + 2 =>
    obtain ⟨st', e, _⟩ := C116_popFront_panics [(0, .make [(1 : Int)])] 0 fuel (by simp [Deque.run, Deque.step])
    rw [e] at h1
    cases h1

/-! ## Concrete cases -/

def exCbStart : DS Int := let w := ((DWorld.init : DWorld Int).run [(0, .make [3, 1, 2])]).2; ⟨w.heap, w.vars 0⟩

def dlSeen (r : Res (DS Int) (List Int)) : Option (List Int) := match r with
  | .ok a _ => some a
  | _ => none

def dlLeft (r : Res (DS Int) (List Int)) : Option (DObs Int) := match r with
  | .ok _ st => some (DL.exec st .values).1
  | .panic st => some (DL.exec st .values).1
  | .diverge => none

/-- Handling `v` appends `v - 1` while that is positive: the work on 3, 1, 2. -/
def exWork (v : Int) : List Int := if v ≤ 1 then [] else [v - 1]

example : dlSeen (DL.forEachC 20 (fun t v => pushes (exWork v) (.ret (t ++ [v]))) [] exCbStart) = some [3, 1, 2, 2, 1, 1] := by decide +kernel
example : dlLeft (DL.forEachC 20 (fun t v => pushes (exWork v) (.ret (t ++ [v]))) [] exCbStart) = some (.list [3, 1, 2, 2, 1, 1]) := by
  decide +kernel
example : Worklist exWork [3, 1, 2] [3, 1, 2, 2, 1, 1] := worklist_sound (n := 20) (by decide +kernel)

/-- Work that never ends. -/
example : ∀ vis, ¬ Worklist (fun v : Int => [v]) [1] vis := by
  intro vis
  induction vis with
  | nil => intro h; cases h
  | cons v vis ih => intro h; cases h with
    | cons h => exact ih h

example : dlSeen (DL.forEachC 20 (fun t v => .call (.pushFront (10 * v)) (fun _ => .ret (t ++ [v]))) [] exCbStart) = some [3, 1, 2] ∧
    dlLeft (DL.forEachC 20 (fun t v => .call (.pushFront (10 * v)) (fun _ => .ret (t ++ [v]))) [] exCbStart) = some (.list [20, 10, 30, 3, 1, 2]) := by
  decide +kernel

example : dlSeen (DL.forEachC 20 (fun t v => .call .clear (fun _ => .ret (t ++ [v]))) [] exCbStart) = some [3, 1, 2] ∧
    dlLeft (DL.forEachC 20 (fun t v => .call .clear (fun _ => .ret (t ++ [v]))) [] exCbStart) = some (.list []) := by decide +kernel

/-- Popping at the back of three elements: two rounds, then a panic with one element left. -/
example : dlSeen (DL.forEachC 20 (fun t v => .call .popBack (fun _ => .ret (t ++ [v]))) [] exCbStart) = none ∧
    dlLeft (DL.forEachC 20 (fun t v => .call .popBack (fun _ => .ret (t ++ [v]))) [] exCbStart) = some (.list [3]) := by decide +kernel

/-- A callback of `ForEachMutable` that reads the length, writes its element and pops the first element once the list is long. -/
example : dlLeft (DL.forEachMutableC 20 (fun (t : List Int) => .load (fun v => .call .len (fun o => .store (v + 10)
    (if o = .num 3 then .call (.pushFront 0) (fun _ => .ret (t ++ [v])) else .call .popFront (fun _ => .ret (t ++ [v])))))) [] exCbStart) =
    some (.list [0, 13, 11, 12]) := by decide +kernel

end Stl4go
