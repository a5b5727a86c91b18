import Verif.Proofs.SListWalk
/-!
# Property C119: the `ForEach` methods of `/repo/slist.go` with callbacks that use lists

The callback is any program over the methods of all list variables (`LProg`), including the list it is called from; the history before the
call is any history on any number of lists.
-/
namespace Stl4go
variable {T σ : Type} [GoZero T]

/-- Whatever the client does next, it sees these lists. -/
def LWorld.Shows (w : LWorld T) (s : Nat → List T) : Prop := ∀ ops, (w.run ops).1 = (LSeq.run s ops).1

/-- The call ended like the specification, and whatever the client does next it sees the lists the specification gives. -/
def EndsLikeL {α : Type} : Res (LWorld T) α → Res (LWalk T) α → Prop
  | .ok a w, .ok b x => a = b ∧ w.Shows x.lists
  | .panic w, .panic x => w.Shows x.lists
  | .diverge, .diverge => True
  | _, _ => False

theorem HoldsL.shows {w : LWorld T} {x : LWalk T} (h : HoldsL w x) : w.Shows x.lists := by
  obtain ⟨ids, hw⟩ := h
  intro ops
  obtain ⟨_, a, _⟩ := LWInv.run ops hw
  exact a

theorem FitsL.endsLike {α : Type} {r : Res (LWorld T) α} {r' : Res (LWalk T) α} (h : FitsL HoldsL HoldsL r r') : EndsLikeL r r' := by
  cases r <;> cases r' <;> first | exact h.elim | trivial | exact ⟨h.1, h.2.shows⟩ | exact HoldsL.shows h

/-- C119: `ForEachMutableIf` with a callback that does anything with the lists. -/
theorem C119_forEachMutableIf (h : List (Nat × LOp T)) (i : Nat) (cb : σ → LProg T (σ × Bool)) (fuel : Nat) (t : σ) :
    let w := (LWorld.init.run h).2
    let s := (LSeq.run (fun _ => []) h).2
    EndsLikeL (LL.forEachMutableIfC fuel i cb t w) (LWalk.run fuel i cb t s) := by
  obtain ⟨ids, _, hw⟩ := LWInv.run h (LWInv.init (T := T))
  exact (hw.forEachMutableIfC i cb fuel t).endsLike

/-- C119: the same for `ForEachMutable`. -/
theorem C119_forEachMutable (h : List (Nat × LOp T)) (i : Nat) (cb : σ → LProg T σ) (fuel : Nat) (t : σ) :
    let w := (LWorld.init.run h).2
    let s := (LSeq.run (fun _ => []) h).2
    EndsLikeL (LL.forEachMutableC fuel i cb t w) (LWalk.run fuel i (LProg.goOn cb) t s) := by
  have e : LL.forEachMutableC fuel i cb t = LL.forEachMutableIfC fuel i (LProg.goOn cb) t := by
    simp only [LL.forEachMutableC, LL.forEachMutableIfC, LL.forEachMutableLoopC_eq]
  rw [e]
  exact C119_forEachMutableIf h i (LProg.goOn cb) fuel t

/-- C119: the same for `ForEachIf`. -/
theorem C119_forEachIf (h : List (Nat × LOp T)) (i : Nat) (cb : σ → T → LProg T (σ × Bool)) (fuel : Nat) (t : σ) :
    let w := (LWorld.init.run h).2
    let s := (LSeq.run (fun _ => []) h).2
    EndsLikeL (LL.forEachIfC fuel i cb t w) (LWalk.run fuel i (LProg.byValue cb) t s) := by
  have e : LL.forEachIfC fuel i cb t = LL.forEachMutableIfC fuel i (LProg.byValue cb) t := by
    simp only [LL.forEachIfC, LL.forEachMutableIfC, LL.forEachIfLoopC_eq]
  rw [e]
  exact C119_forEachMutableIf h i (LProg.byValue cb) fuel t

/-- C119: the same for `ForEach`. -/
theorem C119_forEach (h : List (Nat × LOp T)) (i : Nat) (cb : σ → T → LProg T σ) (fuel : Nat) (t : σ) :
    let w := (LWorld.init.run h).2
    let s := (LSeq.run (fun _ => []) h).2
    EndsLikeL (LL.forEachC fuel i cb t w) (LWalk.run fuel i (LProg.goOn (LProg.byValue cb)) t s) := by
  have e : LL.forEachC fuel i cb t = LL.forEachMutableC fuel i (LProg.byValue cb) t := by
    simp only [LL.forEachC, LL.forEachMutableC, LL.forEachLoopC_eq]
  rw [e]
  exact C119_forEachMutable h i (LProg.byValue cb) fuel t

/-- C119: the call panics only if the callback does, whatever the callback does to the list. -/
theorem C119_panics (h : List (Nat × LOp T)) (i : Nat) (cb : σ → LProg T (σ × Bool)) (hcb : ∀ t x x', (cb t).spec x ≠ .panic x') (fuel : Nat) (t : σ) :
    ∀ w', LL.forEachMutableIfC fuel i cb t (LWorld.init.run h).2 ≠ .panic w' := by
  obtain ⟨ids, _, hw⟩ := LWInv.run h (LWInv.init (T := T))
  exact hw.noPanic i cb hcb fuel t

/-! ## Particular callbacks -/

theorem endsLikeL_ok {α : Type} {r : Res (LWorld T) α} {a : α} {x : LWalk T} (h : EndsLikeL r (.ok a x)) :
    ∃ w', r = .ok a w' ∧ w'.Shows x.lists := by
  cases r with
  | ok b w' => obtain ⟨rfl, hb⟩ := h; exact ⟨w', rfl, hb⟩
  | panic => exact h.elim
  | diverge => exact h.elim

/-- C119: popping in `ForEach` is fine: it visits all elements and leaves the list empty. -/
theorem C119_popFront (h : List (Nat × LOp T)) (i fuel : Nat) :
    let w := (LWorld.init.run h).2
    let s := (LSeq.run (fun _ => []) h).2
    (s i).length < fuel →
    ∃ w', LL.forEachC fuel i (fun t v => .call i .popFront (fun _ => .ret (t ++ [v]))) [] w = .ok (s i) w' ∧
      w'.Shows (fun j => if j = i then [] else s j) := by
  intro w s hf
  have key : EndsLikeL (LL.forEachC fuel i (fun t v => .call i .popFront (fun _ => .ret (t ++ [v]))) [] w) _ := C119_forEach h i _ fuel []
  rw [LWalk.run, LWalk.loop_popFront i _ fuel s [] rfl hf] at key
  exact endsLikeL_ok key

/-- C119: moving the elements to the front of another list, one by one, in `ForEach`. -/
theorem C119_transfer (h : List (Nat × LOp T)) (i j fuel : Nat) (hij : j ≠ i) :
    let w := (LWorld.init.run h).2
    let s := (LSeq.run (fun _ => []) h).2
    (s i).length < fuel →
    ∃ w', LL.forEachC fuel i (fun t v => .call i .popFront (fun _ => .call j (.pushFront v) (fun _ => .ret (t ++ [v])))) [] w = .ok (s i) w' ∧
      w'.Shows (fun k => if k = i then [] else if k = j then (s i).reverse ++ s j else s k) := by
  intro w s hf
  have key : EndsLikeL (LL.forEachC fuel i (fun t v => .call i .popFront (fun _ => .call j (.pushFront v) (fun _ => .ret (t ++ [v])))) [] w) _ :=
    C119_forEach h i _ fuel []
  rw [LWalk.run, LWalk.loop_transfer i j hij _ fuel s [] rfl hf] at key
  exact endsLikeL_ok key

/-- C119: copying the elements, changed by `g`, to the back of another list in `ForEach`. -/
theorem C119_append (h : List (Nat × LOp T)) (i j fuel : Nat) (hij : j ≠ i) (g : T → T) :
    let w := (LWorld.init.run h).2
    let s := (LSeq.run (fun _ => []) h).2
    (s i).length < fuel →
    ∃ w', LL.forEachC fuel i (fun t v => .call j (.pushBack (g v)) (fun _ => .ret (t ++ [v]))) [] w = .ok (s i) w' ∧
      w'.Shows (fun k => if k = j then s j ++ (s i).map g else s k) := by
  intro w s hf
  have key : EndsLikeL (LL.forEachC fuel i (fun t v => .call j (.pushBack (g v)) (fun _ => .ret (t ++ [v]))) [] w) _ := C119_forEach h i _ fuel []
  have e := LWalk.loop_append i j hij g (s i) fuel s [] [] rfl hf
  rw [← start_curAt] at e
  rw [LWalk.run, e] at key
  exact endsLikeL_ok key

/-- C119: clearing the list in `ForEach`, or assigning a new list to its variable, does not stop the loop: it goes on to visit all elements that
were there. -/
theorem C119_detach (h : List (Nat × LOp T)) (i fuel : Nat) :
    let w := (LWorld.init.run h).2
    let s := (LSeq.run (fun _ => []) h).2
    (s i).length < fuel → s i ≠ [] →
    (∃ w', LL.forEachC fuel i (fun t v => .call i .clear (fun _ => .ret (t ++ [v]))) [] w = .ok (s i) w' ∧
      w'.Shows (fun j => if j = i then [] else s j)) ∧
    ∀ vs, ∃ w', LL.forEachC fuel i (fun t v => .call i (.make vs) (fun _ => .ret (t ++ [v]))) [] w = .ok (s i) w' ∧
      w'.Shows (fun j => if j = i then vs else s j) := by
  intro w s hf hne
  refine ⟨?_, fun vs => ?_⟩
  · have key : EndsLikeL (LL.forEachC fuel i (fun t v => .call i .clear (fun _ => .ret (t ++ [v]))) [] w) _ := C119_forEach h i _ fuel []
    rw [LWalk.run_detach i .clear [] (fun _ => rfl) (fun _ _ _ hc => by simp [LCur.after, hc]) fuel s hf hne] at key
    exact endsLikeL_ok key
  · have key : EndsLikeL (LL.forEachC fuel i (fun t v => .call i (.make vs) (fun _ => .ret (t ++ [v]))) [] w) _ := C119_forEach h i _ fuel []
    rw [LWalk.run_detach i (.make vs) vs (fun _ => rfl) (fun _ _ _ hc => by simp [LCur.after, hc]) fuel s hf hne] at key
    exact endsLikeL_ok key

/-- C119: pushing at the back in `ForEach` makes it a worklist. If the work ends, the call returns, having visited the work in order, and the
work is then the contents of the list; if it does not end, neither does the call. -/
theorem C119_worklist (h : List (Nat × LOp T)) (i : Nat) (g : T → List T) :
    let w := (LWorld.init.run h).2
    let s := (LSeq.run (fun _ => []) h).2
    let call := fun fuel => LL.forEachC fuel i (fun t v => LProg.pushes i (g v) (.ret (t ++ [v]))) [] w
    (∀ vis, Worklist g (s i) vis → ∀ fuel, vis.length < fuel → ∃ w', call fuel = .ok vis w' ∧ w'.Shows (fun j => if j = i then vis else s j)) ∧
    ((∀ vis, ¬ Worklist g (s i) vis) → ∀ fuel, call fuel = .diverge) := by
  intro w s call
  have key : ∀ fuel, EndsLikeL (call fuel) (match worklist g fuel (s i) with
      | none => .diverge
      | some vis => .ok vis ⟨putL s i vis, i, {}⟩) := by
    intro fuel
    have k : EndsLikeL (call fuel) _ := C119_forEach h i _ fuel []
    have e := LWalk.loop_pushBack i g fuel s [] (s i) [] rfl
    rw [← start_curAt] at e
    rw [LWalk.run, e] at k
    exact k
  refine ⟨fun vis hv fuel hf => ?_, fun hn fuel => ?_⟩
  · have k := key fuel
    rw [worklist_complete hv hf] at k
    exact endsLikeL_ok k
  · have k := key fuel
    have hw : worklist g fuel (s i) = none := by
      cases hx : worklist g fuel (s i) with
      | none => rfl
      | some vis => exact absurd (worklist_sound hx) (hn vis)
    rw [hw] at k
    show call fuel = .diverge
    revert k
    cases call fuel with
    | ok a st => exact fun h => h.elim
    | panic st => exact fun h => h.elim
    | diverge => exact fun _ => rfl

/-- C119: reversing the list in `ForEach` ends it after the first element, which has become the last. -/
theorem C119_reverse (h : List (Nat × LOp T)) (i fuel : Nat) :
    let w := (LWorld.init.run h).2
    let s := (LSeq.run (fun _ => []) h).2
    s i ≠ [] → ∃ w', LL.forEachC (fuel + 2) i (fun t v => .call i .reverse (fun _ => .ret (t ++ [v]))) [] w = .ok ((s i).take 1) w' ∧
      w'.Shows (fun j => if j = i then (s i).reverse else s j) := by
  intro w s hne
  have key : EndsLikeL (LL.forEachC (fuel + 2) i (fun t v => .call i .reverse (fun _ => .ret (t ++ [v]))) [] w) _ := C119_forEach h i _ (fuel + 2) []
  obtain ⟨v, q, hs⟩ : ∃ v q, s i = v :: q := by
    cases hx : s i with
    | nil => exact absurd hx hne
    | cons v q => exact ⟨v, q, rfl⟩
  rw [LWalk.run_reverse i fuel s v q hs] at key
  have : (s i).take 1 = [v] := by simp [hs]
  rw [this]
  exact endsLikeL_ok key

/-! ## Concrete cases -/

def exLStart : LWorld Int := ((LWorld.init : LWorld Int).run [(0, .make [3, 1, 2]), (1, .make [9])]).2

def slSeen (r : Res (LWorld Int) (List Int)) : Option (List Int × List (DObs Int)) := match r with
  | .ok a w => some (a, (w.run [(0, .values), (1, .values), (0, .pushBack 7), (0, .values), (0, .reverse), (0, .values)]).1)
  | _ => none

example : slSeen (LL.forEachC 20 0 (fun t v => .call 0 .popFront (fun _ => .ret (t ++ [v]))) [] exLStart) =
    some ([3, 1, 2], [.list [], .list [9], .unit, .list [7], .unit, .list [7]]) := by decide +kernel
example : slSeen (LL.forEachC 20 0 (fun t v => .call 0 .popFront (fun _ => .call 1 (.pushFront v) (fun _ => .ret (t ++ [v])))) [] exLStart) =
    some ([3, 1, 2], [.list [], .list [2, 1, 3, 9], .unit, .list [7], .unit, .list [7]]) := by decide +kernel
example : slSeen (LL.forEachC 20 0 (fun t v => .call 0 .reverse (fun _ => .ret (t ++ [v]))) [] exLStart) =
    some ([3], [.list [2, 1, 3], .list [9], .unit, .list [2, 1, 3, 7], .unit, .list [7, 3, 1, 2]]) := by decide +kernel
example : slSeen (LL.forEachC 20 0 (fun t v => LProg.pushes 0 (if v ≤ 1 then [] else [v - 1]) (.ret (t ++ [v]))) [] exLStart) =
    some ([3, 1, 2, 2, 1, 1], [.list [3, 1, 2, 2, 1, 1], .list [9], .unit, .list [3, 1, 2, 2, 1, 1, 7], .unit, .list [7, 1, 1, 2, 2, 1, 3]]) := by
  decide +kernel
example : slSeen (LL.forEachC 20 0 (fun t v => .call 0 (.make [5]) (fun _ => .ret (t ++ [v]))) [] exLStart) =
    some ([3, 1, 2], [.list [5], .list [9], .unit, .list [5, 7], .unit, .list [7, 5]]) := by decide +kernel

/-- A callback of `ForEachMutable` that writes its element after it was popped: the write is not in the list, the loop goes on. -/
example : slSeen (LL.forEachMutableC 20 0 (fun (t : List Int) => .load (fun v => .call 0 .popFront (fun _ => .store (v + 10)
    (.load (fun u => .call 1 (.pushBack u) (fun _ => .ret (t ++ [v]))))))) [] exLStart) =
    some ([3, 1, 2], [.list [], .list [9, 13, 11, 12], .unit, .list [7], .unit, .list [7]]) := by decide +kernel

/-- A callback that never panics, as `C119_panics` asks for. -/
example : ∀ (t : Int) (x x' : LWalk Int), (LProg.call 0 (.pushFront t) (fun _ => .call 1 .reverse (fun _ => .ret (t, true))) : LProg Int (Int × Bool)).spec x ≠ .panic x' := by
  intro t x x'
  simp [LProg.spec, LSeq.step]

end Stl4go
