import Verif.Proofs.CallbackPush
import Verif.Props.Callback
/-!
# Properties C111-C113: callbacks that change what the function works on

The callback may write any memory, push to the vector, assign to it, keep a state, panic or hang.
-/
namespace Stl4go
variable {T ρ : Type}

/-! ## C111 -/

/-- C111: `FindIf` with any callback is a sequence of calls for index 0, 1, ... of the slice it was given. -/
theorem C111_findIf (a : Sl) (cond : T → GoM (CS T ρ) Bool) (s : CS T ρ) :
    findIfC a cond s = (callsUntil id (withElem a cond) (List.range a.len) s).2.yields
      (if true ∈ (callsUntil id (withElem a cond) (List.range a.len) s).1 then
        ((((callsUntil id (withElem a cond) (List.range a.len) s).1.length - 1 : Nat) : Int), true) else (-1, false)) := by
  have := findIfLoopC_any a cond a.len 0 s (by omega)
  simpa [findIfC, List.range_eq_range'] using this

/-- C111: `AnyOf`. -/
theorem C111_anyOf (a : Sl) (pred : T → GoM (CS T ρ) Bool) (s : CS T ρ) :
    anyOfC a pred s = (callsUntil id (withElem a pred) (List.range a.len) s).2.yields
      (decide (true ∈ (callsUntil id (withElem a pred) (List.range a.len) s).1)) := by
  rw [List.range_eq_range']
  exact anyOfLoopC_any a pred a.len 0 s (by omega)

/-- C111: `NoneOf`. -/
theorem C111_noneOf (a : Sl) (pred : T → GoM (CS T ρ) Bool) (s : CS T ρ) :
    noneOfC a pred s = (callsUntil id (withElem a pred) (List.range a.len) s).2.yields
      (decide (true ∉ (callsUntil id (withElem a pred) (List.range a.len) s).1)) := by
  simp only [noneOfC, GoM.bind_def, C111_anyOf]
  cases (callsUntil id (withElem a pred) (List.range a.len) s).2 <;> simp [CallEnd.yields]

/-- C111: `AllOf`. -/
theorem C111_allOf (a : Sl) (pred : T → GoM (CS T ρ) Bool) (s : CS T ρ) :
    allOfC a pred s = (callsUntil (!·) (withElem a pred) (List.range a.len) s).2.yields
      (decide (false ∉ (callsUntil (!·) (withElem a pred) (List.range a.len) s).1)) := by
  rw [List.range_eq_range']
  exact allOfLoopC_any a pred a.len 0 s (by omega)

/-- C111: `CountIf`. -/
theorem C111_countIf (a : Sl) (pred : T → GoM (CS T ρ) Bool) (s : CS T ρ) :
    countIfC a pred s = (callsAll (withElem a pred) (List.range a.len) s).2.yields
      ((callsAll (withElem a pred) (List.range a.len) s).1.count true) := by
  have := countIfLoopC_any a pred a.len 0 0 s (by omega)
  rw [Nat.zero_add] at this
  rw [List.range_eq_range']
  exact this

/-- C111: `Transform` stores each answer where the element was. -/
theorem C111_transform (a : Sl) (op : T → GoM (CS T ρ) T) (s : CS T ρ) :
    transformC a op s = (callsAll (callThen (withElem a op) (fun r i => CS.store a i r)) (List.range a.len) s).2.yields () := by
  rw [List.range_eq_range']
  exact transformLoopC_any a op a.len 0 s (by omega)

/-- C111: `Generate`. -/
theorem C111_generate (a : Sl) (gen : GoM (CS T ρ) T) (s : CS T ρ) :
    generateC a gen s = (callsAll (callThen (fun _ => gen) (fun r i => CS.store a i r)) (List.range a.len) s).2.yields () := by
  rw [List.range_eq_range']
  exact generateLoopC_any a gen a.len 0 s (by omega)

/-- C111: `ReplaceIf`. -/
theorem C111_replaceIf (a : Sl) (pred : T → GoM (CS T ρ) Bool) (new : T) (s : CS T ρ) :
    replaceIfC a pred new s =
      (callsAll (callThen (withElem a pred) (fun b i s => if b = true then CS.store a i new s else s)) (List.range a.len) s).2.yields () := by
  rw [List.range_eq_range']
  exact replaceIfLoopC_any a pred new a.len 0 s (by omega)

/-- C111: `RemoveIf`: what is kept is the element as it was before the call about it. -/
theorem C111_removeIf (a : Sl) (cond : T → GoM (CS T ρ) Bool) (s : CS T ρ) (ha : a.len ≤ a.cap) :
    removeIfC a cond s =
      match (callsAll (removeStep a cond) (List.range a.len) (s, 0)).2 with
      | .done t => .ok { a with len := t.2 } t.1
      | .panicked t => .panic t.1
      | .hung => .diverge := by
  obtain ⟨h1, h2⟩ := removeIfLoopC_any a cond a.len 0 0 s (by omega) (by omega)
  rw [← List.range_eq_range'] at h1 h2
  simp only [removeIfC, GoM.bind_def, h1]
  cases he : (callsAll (removeStep a cond) (List.range a.len) (s, 0)).2 with
  | panicked t => rfl
  | hung => rfl
  | done t =>
    simp only [CallEnd.counted]
    have := h2 t.1 t.2 he
    exact CS.on_ok (Sl.slice_zero a _ t.2 (by omega))

/-- C111: `ForEach` of a vector. -/
theorem C111_forEach (v : Sl) (cb : T → GoM (CS T ρ) Unit) (s : CS T ρ) :
    Vec.forEachC v cb s = (callsAll (withElem v cb) (List.range v.len) s).2.yields () := by
  rw [List.range_eq_range']
  exact Vec.forEachLoopC_any v cb v.len 0 s (by omega)

/-- C111: `ForEachIf` of a vector. -/
theorem C111_forEachIf (v : Sl) (cb : T → GoM (CS T ρ) Bool) (s : CS T ρ) :
    Vec.forEachIfC v cb s = (callsUntil (!·) (withElem v cb) (List.range v.len) s).2.yields () := by
  rw [List.range_eq_range']
  exact Vec.forEachIfLoopC_any v cb v.len 0 s (by omega)

/-- C111: `ForEachMutable` of a vector passes the addresses of the array it was called for. -/
theorem C111_forEachMutable (v : Sl) (cb : Nat → GoM (CS T ρ) Unit) (s : CS T ρ) :
    Vec.forEachMutableC v cb s = (callsAll (fun i => cb (v.off + i)) (List.range v.len) s).2.yields () := by
  rw [List.range_eq_range']
  exact Vec.forEachMutableLoopC_any v cb v.len 0 s (by omega)

/-- C111: `ForEachMutableIf` of a vector. -/
theorem C111_forEachMutableIf (v : Sl) (cb : Nat → GoM (CS T ρ) Bool) (s : CS T ρ) :
    Vec.forEachMutableIfC v cb s = (callsUntil (!·) (fun i => cb (v.off + i)) (List.range v.len) s).2.yields () := by
  rw [List.range_eq_range']
  exact Vec.forEachMutableIfLoopC_any v cb v.len 0 s (by omega)

/-- C111: the number of calls is at most the length the slice had. -/
theorem C111_at_most {α σ : Type} (stop : α → Bool) (cb : Nat → GoM σ α) (n : Nat) (s : σ) : (callsUntil stop cb (List.range n) s).1.length ≤ n := by
  have := callsUntil_length_le stop cb (List.range n) s
  simpa using this

/-- C111: if all calls return so do the functions, whatever the callback does to the slice or the vector. -/
theorem C111_ends {α σ : Type} (stop : α → Bool) (cb : Nat → GoM σ α) (h : AlwaysReturns cb) (xs : List Nat) (s : σ) :
    ∃ t, (callsUntil stop cb xs s).2 = .done t := by
  induction xs generalizing s with
  | nil => exact ⟨s, rfl⟩
  | cons x xs ih =>
    obtain ⟨a, s', e⟩ := h x s
    cases hs : stop a with
    | true => exact ⟨s', by simp [callsUntil, e, hs]⟩
    | false =>
      obtain ⟨t, ht⟩ := ih s'
      exact ⟨t, by simp [callsUntil, e, hs, ht]⟩

/-- A callback for the examples: it sets the next element to 7 and notes what it was given. -/
def spoiler (a : Sl) (x : Int) : GoM (CS Int (List Int)) Bool := fun s =>
  .ok (decide (x = 7)) ⟨s.mem.write (a.off + s.st.length + 1) [7], s.st ++ [x]⟩

/-- The result, what the callback was given and the elements. -/
def seen {α : Type} (a : Sl) : Res (CS Int (List Int)) α → Option (α × List Int × List Int)
  | .ok r s => some (r, s.st, a.read s.mem)
  | _ => none

example : seen ⟨0, 4, 4⟩ (findIfC ⟨0, 4, 4⟩ (spoiler ⟨0, 4, 4⟩) ⟨memOf [1, 2, 3, 4], []⟩) = some ((1, true), [1, 7], [1, 7, 7, 4]) := by
  decide +kernel
example : seen ⟨0, 4, 4⟩ (countIfC ⟨0, 3, 4⟩ (spoiler ⟨0, 4, 4⟩) ⟨memOf [1, 2, 3, 4], []⟩) = some (2, [1, 7, 7], [1, 7, 7, 7]) := by
  decide +kernel
example : seen ⟨0, 4, 4⟩ (removeIfC ⟨0, 3, 4⟩ (spoiler ⟨0, 4, 4⟩) ⟨memOf [1, 2, 3, 4], []⟩) = some (⟨0, 1, 4⟩, [1, 7, 7], [1, 7, 7, 7]) := by
  decide +kernel

/-! ## C112 -/

/-- C112: a callback of `ForEach` may push to the vector: it ends, and there is one new element for each that was there. -/
theorem C112_forEach_push [GoZero T] (grow : Nat → Nat → Nat) (f : T → T) (m : Mem T) (v : Sl) (t : ρ) (hv : v.WF m) :
    ∃ m' v', Vec.forEachC v (fun x => CS.vec (Vec.pushBack grow (f x))) ⟨m, v, t⟩ = .ok () ⟨m', v', t⟩ ∧ v'.WF m' ∧
      v'.read m' = v.read m ++ (v.read m).map f ∧ v.read m' = v.read m := by
  have := forEach_push_loop grow f v (v.read m) 0 m v t rfl hv (by have := hv.1; have := hv.2; omega) (.inl ⟨rfl, rfl, Nat.le_refl _⟩)
  simpa [Vec.forEachC] using this

/-- The elements of the vector after a call. -/
def inVector {α : Type} : Res (CS Int (Sl × Unit)) α → Option (List Int)
  | .ok _ s => some (s.st.1.read s.mem)
  | _ => none

example : inVector (Vec.forEachC ⟨0, 3, 4⟩ (fun x => CS.vec (Vec.pushBack (fun _ n => n) (x * 10))) ⟨memOf [1, 2, 3, 0], ⟨0, 3, 4⟩, ()⟩) =
    some [1, 2, 3, 10, 20, 30] := by decide +kernel

/-! ## C113 -/

/-- C113 in full: elements that a callback of `RemoveIf` pushes to the vector are in it afterwards, and a callback of `ForEachMutable` that
changes its element and pushes changes all elements. -/
def C113_statement : Prop :=
  (∀ (grow : Nat → Nat → Nat) (p : Int → Bool) (g : Int → Int) (m : Mem Int) (v : Sl) (s : CS Int (Sl × Unit)), v.WF m →
    Vec.removeIfC (pushAndAnswer grow p g) ⟨m, v, ()⟩ = .ok () s → ∀ x ∈ v.read m, g x ∈ s.st.1.read s.mem) ∧
  (∀ (grow : Nat → Nat → Nat) (f h : Int → Int) (m : Mem Int) (v : Sl) (s : CS Int (Sl × Unit)), v.WF m →
    Vec.forEachMutableC v (setAndPush grow f h) ⟨m, v, ()⟩ = .ok () s → s.st.1.read s.mem = (v.read m).map f ++ (v.read m).map h)

/-- C113, what `RemoveIf` does: it removes what it should, but what the callback pushed is not in the vector. -/
theorem C113_removeIf_partial [GoZero T] (grow : Nat → Nat → Nat) (p : T → Bool) (g : T → T) (m : Mem T) (v : Sl) (t : ρ) (hv : v.WF m) :
    ∃ m' k, Vec.removeIfC (pushAndAnswer grow p g) ⟨m, v, t⟩ = .ok () ⟨m', { v with len := k }, t⟩ ∧
      Sl.read m' { v with len := k } = (v.read m).filter (fun x => !p x) := by
  have hvt : v.off + v.len ≤ m.top := by have := hv.1; have := hv.2; omega
  obtain ⟨m1, w1, e, h1, h2⟩ := removeIf_push_loop grow p g v (v.read m) 0 [] m v t rfl (by simp) (by simp) hv hvt (.inl ⟨rfl, rfl, Nat.le_refl _⟩)
  simp only [List.nil_append, Sl.read_length, List.length_nil] at e h2
  have hk : ((v.read m).filter (fun x => !p x)).length ≤ v.len := by
    have := List.length_filter_le (fun x => !p x) (v.read m)
    simpa using this
  generalize ((v.read m).filter (fun x => !p x)) = ks at *
  refine ⟨m1.write (v.off + ks.length) (List.replicate (v.len - ks.length) GoZero.zero), ks.length, ?_, ?_⟩
  · simp only [Vec.removeIfC, GoM.bind_def, CS.vec, VS.recv, Stl4go.removeIfC, e]
    rw [CS.on_ok (Sl.slice_zero v _ ks.length (by have := hv.1; omega))]
    simp only [VS.assign]
    rw [CS.on_ok (Sl.slice_ok v _ ks.length v.len hk hv.1)]
    simp only [CS.on, fillZero, Sl.clear]
  · rw [Sl.read_write_disjoint _ _ _ _ (.inl (by simp))]
    rw [← h2]
    apply List.ext_getElem (by simp)
    intro i h3 h4
    rw [Sl.read_getElem, List.getElem_take, Sl.read_getElem]

/-- C113, what `ForEachMutable` does: from the call on that had to move the vector, the callback changes the old array. -/
theorem C113_forEachMutable_partial [GoZero T] (grow : Nat → Nat → Nat) (f h : T → T) (m : Mem T) (v : Sl) (t : ρ) (hv : v.WF m) :
    ∃ m' v', Vec.forEachMutableC v (setAndPush grow f h) ⟨m, v, t⟩ = .ok () ⟨m', v', t⟩ ∧ v'.WF m' ∧
      v'.read m' = ((v.read m).take (v.cap - v.len + 1)).map f ++ (v.read m).drop (v.cap - v.len + 1) ++ (v.read m).map h ∧
      v.read m' = (v.read m).map f := by
  have := mutable_grown grow f h v (v.read m) [] [] m v t rfl rfl hv (by simp)
  simpa [Vec.forEachMutableC] using this

/-- C113, when it holds for `ForEachMutable`: there is room for all but one of the pushed elements. -/
theorem C113_forEachMutable_room_partial [GoZero T] (grow : Nat → Nat → Nat) (f h : T → T) (m : Mem T) (v : Sl) (t : ρ) (hv : v.WF m)
    (hroom : 2 * v.len ≤ v.cap + 1) :
    ∃ m' v', Vec.forEachMutableC v (setAndPush grow f h) ⟨m, v, t⟩ = .ok () ⟨m', v', t⟩ ∧ v'.read m' = (v.read m).map f ++ (v.read m).map h := by
  obtain ⟨m', v', e, _, hr, _⟩ := C113_forEachMutable_partial grow f h m v t hv
  have := hv.1
  refine ⟨m', v', e, ?_⟩
  rw [hr, List.take_of_length_le (by simp; omega), List.drop_eq_nil_of_le (by simp; omega)]
  simp

/-- C113 is false of the code, for `RemoveIf`. -/
theorem C113_counterexample : ¬ C113_statement := by
  intro h
  obtain ⟨m', k, e, hr⟩ := C113_removeIf_partial (fun _ n => n) (· == 1) (· + 10) (memOf [1, 2]) ⟨0, 2, 2⟩ () ⟨by decide, by decide⟩
  have := h.1 _ _ _ _ _ _ ⟨by decide, by decide⟩ e 1 (by decide)
  simp only [hr] at this
  revert this
  decide

/-- C113 is false of the code, for `ForEachMutable`. -/
theorem C113_counterexample_mutable : ¬ C113_statement := by
  intro h
  obtain ⟨m', v', e, _, hr, _⟩ := C113_forEachMutable_partial (fun _ n => n) (· * 10) (fun _ => 0) (memOf [1, 2, 3]) ⟨0, 3, 3⟩ () ⟨by decide, by decide⟩
  have := h.2 _ _ _ _ _ _ ⟨by decide, by decide⟩ e
  simp only [hr] at this
  revert this
  decide

example : inVector (Vec.forEachMutableC ⟨0, 3, 3⟩ (setAndPush (fun _ n => n) (· * 10) (fun _ => 0)) ⟨memOf [1, 2, 3], ⟨0, 3, 3⟩, ()⟩) =
    some [10, 2, 3, 0, 0, 0] := by decide +kernel
example : inVector (Vec.forEachMutableC ⟨0, 3, 6⟩ (setAndPush (fun _ n => n) (· * 10) (fun _ => 0)) ⟨memOf [1, 2, 3, 0, 0, 0], ⟨0, 3, 6⟩, ()⟩) =
    some [10, 20, 30, 0, 0, 0] := by decide +kernel

end Stl4go
