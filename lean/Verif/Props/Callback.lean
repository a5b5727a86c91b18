import Verif.Proofs.CallbackAgain
import Verif.Props.Transform
/-!
# Properties C106-C109: callbacks that panic

Callbacks have a state of their own and may panic or hang (`ownState`: they do not touch the elements). `callsAll cb xs t` is the sequence
of calls with `xs` in order: the answers, and whether it came to an end, panicked or hung. `e.outcome m a` returns, panics or hangs
accordingly, leaving the memory `m`.
-/
namespace Stl4go
variable {T R σ ρ : Type}

/-- A callback for the examples: `f`, but the `n`-th call (from 0) panics. -/
def panicsAt {α : Type} (n : Nat) (f : T → α) (x : T) : GoM Nat α := fun t => if t = n then .panic (t + 1) else .ok (f x) (t + 1)

/-- What a caller that recovers finds in a slice. -/
def foundIn (a : Sl) : Res (CS T σ) ρ → Option (List T)
  | .panic s => some (a.read s.mem)
  | _ => none

/-! ## C106 -/

/-- C106: `RemoveIf` on any callback. The kept elements are written to the front, and no other cell is touched, also when the
callback panics. -/
theorem C106_removeIf (a : Sl) (cond : T → GoM σ Bool) (m : Mem T) (t : σ) (ha : a.WF m) :
    removeIfC a (fun x => ownState (cond x)) ⟨m, t⟩ =
      (callsAll cond (a.read m) t).2.outcome (m.write a.off (keptBy (a.read m) (callsAll cond (a.read m) t).1))
        { a with len := (keptBy (a.read m) (callsAll cond (a.read m) t).1).length } := removeIfC_eq a cond m t ha

/-- C106: a slice after a panic in `RemoveIf` still has, in order, all the elements that were to be kept and all that were not looked at. -/
theorem C106_removeIf_keeps (a : Sl) (cond : T → GoM σ Bool) (m : Mem T) (t : σ) (ha : a.WF m) {s : CS T σ}
    (h : removeIfC a (fun x => ownState (cond x)) ⟨m, t⟩ = .panic s) :
    (keptBy (a.read m) (callsAll cond (a.read m) t).1 ++ (a.read m).drop (callsAll cond (a.read m) t).1.length).Sublist (a.read s.mem) ∧
      OnlyIn m s.mem a := by
  rw [C106_removeIf a cond m t ha] at h
  have hk := keptBy_length_le (a.read m) (callsAll cond (a.read m) t).1
  have hb : (callsAll cond (a.read m) t).1.length ≤ (a.read m).length := callsUntil_length_le _ _ _ _
  rw [Sl.read_length] at hk
  cases he : (callsAll cond (a.read m) t).2 with
  | done t' => simp [he, CallEnd.outcome] at h
  | hung => simp [he, CallEnd.outcome] at h
  | panicked t' =>
    simp only [he, CallEnd.outcome, Res.panic.injEq] at h
    subst h
    simp only
    rw [Sl.read_write_front m a _ hk]
    refine ⟨kept_then_unseen _ _ hb, rfl, fun k hk' => ?_⟩
    exact Mem.write_out _ _ _ _ (by omega)

/-- C106: `RemoveIf` of a vector; `cond` may assign to the vector variable. A panic leaves that variable to `cond`; without one it holds
the kept elements, and the freed slots are zero. -/
theorem C106_vector_removeIf [GoZero T] (cond : T → GoM (Sl × σ) Bool) (m : Mem T) (v : Sl) (t : σ) (hv : v.WF m) :
    Vec.removeIfC (fun x => ownState (cond x)) ⟨m, v, t⟩ =
      match (callsAll cond (v.read m) (v, t)).2 with
      | .done t' => .ok () ⟨m.write v.off (keptBy (v.read m) (callsAll cond (v.read m) (v, t)).1 ++
          List.replicate (v.len - (keptBy (v.read m) (callsAll cond (v.read m) (v, t)).1).length) GoZero.zero),
          { v with len := (keptBy (v.read m) (callsAll cond (v.read m) (v, t)).1).length }, t'.2⟩
      | .panicked t' => .panic ⟨m.write v.off (keptBy (v.read m) (callsAll cond (v.read m) (v, t)).1), t'⟩
      | .hung => .diverge := Vec.removeIfC_eq cond m v t hv

/-- C106: `Transform` has changed exactly the elements for which the call returned. -/
theorem C106_transform (a : Sl) (op : T → GoM σ T) (m : Mem T) (t : σ) :
    transformC a (fun x => ownState (op x)) ⟨m, t⟩ =
      (callsAll op (a.read m) t).2.outcome (m.write a.off (callsAll op (a.read m) t).1) () := by
  have := transformLoopC_eq a op (a.read m) 0 m t rfl
  simpa [transformC] using this

/-- C106: so has `ReplaceIf`. -/
theorem C106_replaceIf (a : Sl) (pred : T → GoM σ Bool) (new : T) (m : Mem T) (t : σ) :
    replaceIfC a (fun x => ownState (pred x)) new ⟨m, t⟩ =
      (callsAll pred (a.read m) t).2.outcome
        (m.write a.off (List.zipWith (fun x b => if b = true then new else x) (a.read m) (callsAll pred (a.read m) t).1)) () := by
  have := replaceIfLoopC_eq a pred new (a.read m) 0 m t rfl
  simpa [replaceIfC] using this

/-- C106: so has `Generate`. -/
theorem C106_generate (a : Sl) (gen : GoM σ T) (m : Mem T) (t : σ) :
    generateC a (ownState gen) ⟨m, t⟩ =
      (callsAll (fun _ : Unit => gen) (List.replicate a.len ()) t).2.outcome
        (m.write a.off (callsAll (fun _ : Unit => gen) (List.replicate a.len ()) t).1) () := by
  have := generateLoopC_eq a gen a.len 0 m t (by omega)
  simpa [generateC] using this

example : foundIn ⟨0, 5, 5⟩ (removeIfC ⟨0, 5, 5⟩ (fun x => ownState (panicsAt 3 (· % 2 == 1) x)) ⟨memOf [1, 2, 3, 4, 5], 0⟩) = some [2, 2, 3, 4, 5] := by
  decide +kernel
example : foundIn ⟨0, 5, 5⟩ (transformC ⟨0, 5, 5⟩ (fun x => ownState (panicsAt 3 (· * 10) x)) ⟨memOf [1, 2, 3, 4, 5], 0⟩) = some [10, 20, 30, 4, 5] := by
  decide +kernel
example : foundIn ⟨0, 5, 5⟩ (replaceIfC ⟨0, 5, 5⟩ (fun x => ownState (panicsAt 3 (· % 2 == 1) x)) 0 ⟨memOf [1, 2, 3, 4, 5], 0⟩) = some [0, 2, 0, 4, 5] := by
  decide +kernel
example : foundIn ⟨0, 5, 5⟩ (generateC ⟨0, 5, 5⟩ (ownState (panicsAt 3 (fun _ => 7) ())) ⟨memOf [1, 2, 3, 4, 5], 0⟩) = some [7, 7, 7, 4, 5] := by
  decide +kernel

/-! ## C107 -/

/-- Whenever the callback returns, it answers `f`. -/
def AnswersAs {α : Type} (cb : T → GoM σ α) (f : T → α) : Prop := ∀ x t b t', cb x t = .ok b t' → b = f x

/-- C107 in full, for `RemoveIf` and `Transform`: repeated after a panic, the call does what it would have done in the first place. -/
def C107_statement : Prop :=
  (∀ (a : Sl) (cond : Int → GoM Nat Bool) (p : Int → Bool) (m m1 m2 : Mem Int) (t t1 t2 t3 : Nat) (r : Sl), a.WF m → AnswersAs cond p →
    removeIfC a (fun x => ownState (cond x)) ⟨m, t⟩ = .panic ⟨m1, t1⟩ → removeIfC a (fun x => ownState (cond x)) ⟨m1, t2⟩ = .ok r ⟨m2, t3⟩ →
    r.read m2 = (a.read m).filter (fun x => !p x)) ∧
  (∀ (a : Sl) (op : Int → GoM Nat Int) (f : Int → Int) (m m1 m2 : Mem Int) (t t1 t2 t3 : Nat), a.WF m → AnswersAs op f →
    transformC a (fun x => ownState (op x)) ⟨m, t⟩ = .panic ⟨m1, t1⟩ → transformC a (fun x => ownState (op x)) ⟨m1, t2⟩ = .ok () ⟨m2, t3⟩ →
    a.read m2 = (a.read m).map f)

theorem answersAs_panicsAt {α : Type} (n : Nat) (f : T → α) : AnswersAs (panicsAt n f) f := by
  intro x t b t' h
  unfold panicsAt at h
  split at h
  · cases h
  · injection h with h1 h2
    exact h1.symm

/-- C107 is false of the code, for `RemoveIf`: elements moved before the panic are there twice. -/
theorem C107_counterexample : ¬ C107_statement := by
  intro h
  have h1 := C106_removeIf (⟨0, 3, 3⟩ : Sl) (panicsAt 2 (· == 1)) (memOf [1, 2, 3]) 0 ⟨by decide, by decide⟩
  have e1 : callsAll (panicsAt 2 (· == (1 : Int))) (Sl.read (memOf [1, 2, 3]) ⟨0, 3, 3⟩) 0 = ([true, false], .panicked 3) := by decide
  rw [e1] at h1
  simp only [CallEnd.outcome] at h1
  have h2 := C106_removeIf (⟨0, 3, 3⟩ : Sl) (panicsAt 2 (· == 1)) ((memOf [1, 2, 3]).write 0 [2]) 3 ⟨by decide, by decide⟩
  have e2 : callsAll (panicsAt 2 (· == (1 : Int))) (Sl.read ((memOf [1, 2, 3]).write 0 [2]) ⟨0, 3, 3⟩) 3 = ([false, false, false], .done 6) := by decide
  rw [e2] at h2
  simp only [CallEnd.outcome] at h2
  have := h.1 _ _ (· == 1) _ _ _ _ _ _ _ _ ⟨by decide, by decide⟩ (answersAs_panicsAt 2 _) h1 h2
  revert this
  decide

/-- C107 is false of the code, for `Transform` too: it is applied twice to the elements before the panic. -/
theorem C107_counterexample_transform : ¬ C107_statement := by
  intro h
  have h1 := C106_transform (⟨0, 3, 3⟩ : Sl) (panicsAt 2 (· + 1)) (memOf [1, 2, 3]) 0
  have e1 : callsAll (panicsAt 2 (· + (1 : Int))) (Sl.read (memOf [1, 2, 3]) ⟨0, 3, 3⟩) 0 = ([2, 3], .panicked 3) := by decide
  rw [e1] at h1
  simp only [CallEnd.outcome] at h1
  have h2 := C106_transform (⟨0, 3, 3⟩ : Sl) (panicsAt 2 (· + 1)) ((memOf [1, 2, 3]).write 0 [2, 3]) 3
  have e2 : callsAll (panicsAt 2 (· + (1 : Int))) (Sl.read ((memOf [1, 2, 3]).write 0 [2, 3]) ⟨0, 3, 3⟩) 3 = ([3, 4, 4], .done 6) := by decide
  rw [e2] at h2
  simp only [CallEnd.outcome] at h2
  have := h.2 _ _ (· + 1) _ _ _ _ _ _ _ ⟨by decide, by decide⟩ (answersAs_panicsAt 2 _) h1 h2
  revert this
  decide

/-- C107, what `RemoveIf` does when repeated: with `k` answers before the panic, of which `j` were to keep the element, the kept elements
among those from `j` to `k` come a second time. It is right if none or all of the `k` were removed. -/
theorem C107_removeIf_partial (a : Sl) (cond : T → GoM σ Bool) (p : T → Bool) (hp : AnswersAs cond p) (m m1 m2 : Mem T) (t t1 t2 t3 : σ) (r : Sl)
    (ha : a.WF m) (h1 : removeIfC a (fun x => ownState (cond x)) ⟨m, t⟩ = .panic ⟨m1, t1⟩)
    (h2 : removeIfC a (fun x => ownState (cond x)) ⟨m1, t2⟩ = .ok r ⟨m2, t3⟩) :
    ∃ j k, k < a.len ∧ j = (((a.read m).take k).filter (fun x => !p x)).length ∧
      r.read m2 = ((a.read m).take k).filter (fun x => !p x) ++ ((a.read m).drop j).filter (fun x => !p x) ∧
      ((j = k ∨ ∀ x ∈ (a.read m).take k, p x = true) → r.read m2 = (a.read m).filter (fun x => !p x)) := by
  rw [C106_removeIf a cond m t ha] at h1
  have hlt : ∀ t', (callsAll cond (a.read m) t).2 = .panicked t' → (callsAll cond (a.read m) t).1.length < a.len := by
    intro t' he
    have hle : (callsAll cond (a.read m) t).1.length ≤ (a.read m).length := callsUntil_length_le _ _ _ _
    rw [Sl.read_length] at hle
    apply Nat.lt_of_le_of_ne hle
    intro hn
    have : ∀ (xs : List T) (t : σ), (callsAll cond xs t).1.length = xs.length → ∀ t', (callsAll cond xs t).2 ≠ .panicked t' := by
      intro xs
      induction xs with
      | nil => intro t _ t'; simp [callsUntil]
      | cons x xs ih =>
        intro t hl t'
        cases hc : cond x t with
        | panic t' => simp [callsUntil, hc] at hl
        | diverge => simp [callsUntil, hc] at hl
        | ok b t1 =>
          simp only [callsAll, callsUntil, hc, Bool.false_eq_true, if_false, List.length_cons] at hl ⊢
          exact ih t1 (by simpa using hl) t'
    exact this _ _ (by simpa using hn) t' he
  have hans := callsAll_answers hp (a.read m) t
  cases he : (callsAll cond (a.read m) t).2 with
  | done t' => simp [he, CallEnd.outcome] at h1
  | hung => simp [he, CallEnd.outcome] at h1
  | panicked t' =>
    have hk := hlt t' he
    generalize (callsAll cond (a.read m) t).1.length = k at hans hk
    rw [he, hans, keptBy_map] at h1
    simp only [CallEnd.outcome, Res.panic.injEq, CS.mk.injEq] at h1
    have hf : (((a.read m).take k).filter (fun x => !p x)).length ≤ k := by
      refine Nat.le_trans (List.length_filter_le _ _) ?_
      simp; omega
    have hread : a.read m1 = ((a.read m).take k).filter (fun x => !p x) ++ (a.read m).drop (((a.read m).take k).filter (fun x => !p x)).length := by
      rw [← h1.1]
      exact Sl.read_write_front m a _ (by omega)
    have hr : r.read m2 = (a.read m1).filter (fun x => !p x) := by
      have ha1 : a.WF m1 := by rw [← h1.1]; exact ha
      rw [C106_removeIf a cond m1 t2 ha1] at h2
      cases he2 : (callsAll cond (a.read m1) t2).2 with
      | panicked t' => simp [he2, CallEnd.outcome] at h2
      | hung => simp [he2, CallEnd.outcome] at h2
      | done t' =>
        rw [he2, callsAll_done hp he2, keptBy_map_all] at h2
        simp only [CallEnd.outcome, Res.ok.injEq, CS.mk.injEq] at h2
        rw [← h2.1, ← h2.2.1]
        exact Sl.read_write_self m1 { a with len := _ } _ rfl
    refine ⟨_, k, hk, rfl, ?_, ?_⟩
    · rw [hr, hread, List.filter_append, List.filter_filter]
      simp
    · intro hor
      rw [hr, hread, List.filter_append, List.filter_filter]
      simp only [Bool.and_self]
      rcases hor with hj | hall
      · rw [hj, ← List.filter_append, List.take_append_drop]
      · have : ((a.read m).take k).filter (fun x => !p x) = [] := by
          rw [List.filter_eq_nil_iff]
          intro x hx
          simp [hall x hx]
        rw [this]
        simp

/-- C107, what holds: `ReplaceIf`, repeated after a panic, gives the result of one undisturbed call. -/
theorem C107_replaceIf_partial (a : Sl) (pred : T → GoM σ Bool) (p : T → Bool) (hp : AnswersAs pred p) (new : T) (m m1 m2 : Mem T) (t t1 t2 t3 : σ)
    (h1 : replaceIfC a (fun x => ownState (pred x)) new ⟨m, t⟩ = .panic ⟨m1, t1⟩)
    (h2 : replaceIfC a (fun x => ownState (pred x)) new ⟨m1, t2⟩ = .ok () ⟨m2, t3⟩) :
    a.read m2 = (a.read m).map (fun x => if p x = true then new else x) ∧ OnlyIn m m2 a := by
  rw [C106_replaceIf] at h1 h2
  have hans := callsAll_answers hp (a.read m) t
  have hle : (callsAll pred (a.read m) t).1.length ≤ (a.read m).length := callsUntil_length_le _ _ _ _
  cases he : (callsAll pred (a.read m) t).2 with
  | done t' => simp [he, CallEnd.outcome] at h1
  | hung => simp [he, CallEnd.outcome] at h1
  | panicked t' =>
    generalize (callsAll pred (a.read m) t).1.length = k at hans hle
    rw [he, hans, zipWith_replace] at h1
    simp only [CallEnd.outcome, Res.panic.injEq, CS.mk.injEq] at h1
    rw [Sl.read_length] at hle
    have hl : (((a.read m).take k).map (fun x => if p x = true then new else x)).length = k := by simp; omega
    have hread := Sl.read_write_front m a (((a.read m).take k).map (fun x => if p x = true then new else x)) (by omega)
    rw [h1.1, hl] at hread
    cases he2 : (callsAll pred (a.read m1) t2).2 with
    | panicked t' => simp [he2, CallEnd.outcome] at h2
    | hung => simp [he2, CallEnd.outcome] at h2
    | done t' =>
      have hall := zipWith_replace p new (a.read m1) (a.read m1).length
      rw [List.take_length] at hall
      rw [he2, callsAll_done hp he2, hall] at h2
      simp only [CallEnd.outcome, Res.ok.injEq, CS.mk.injEq, true_and] at h2
      rw [← h2.1, ← h1.1]
      constructor
      · rw [Sl.read_write_self _ _ _ (by simp), h1.1, hread, List.map_append, List.map_map]
        rw [← List.take_append_drop k (a.read m), List.map_append]
        simp only [List.take_append_drop]
        congr 1
        apply List.map_congr_left
        intro x _
        simp only [Function.comp]
        by_cases hx : p x = true
        · simp [hx]
        · simp [hx]
      · refine ⟨rfl, fun c hc => ?_⟩
        rw [Mem.write_out _ _ _ _ (by simp; omega), Mem.write_out _ _ _ _ (by rw [hl]; omega)]

/-- C107, what `Transform` does when repeated: the elements before the panic are transformed twice. -/
theorem C107_transform_partial (a : Sl) (op : T → GoM σ T) (f : T → T) (hf : AnswersAs op f) (m m1 m2 : Mem T) (t t1 t2 t3 : σ)
    (h1 : transformC a (fun x => ownState (op x)) ⟨m, t⟩ = .panic ⟨m1, t1⟩)
    (h2 : transformC a (fun x => ownState (op x)) ⟨m1, t2⟩ = .ok () ⟨m2, t3⟩) :
    ∃ k ≤ a.len, a.read m2 = ((a.read m).take k).map (fun x => f (f x)) ++ ((a.read m).drop k).map f := by
  rw [C106_transform] at h1 h2
  have hans := callsAll_answers hf (a.read m) t
  have hle : (callsAll op (a.read m) t).1.length ≤ (a.read m).length := callsUntil_length_le _ _ _ _
  cases he : (callsAll op (a.read m) t).2 with
  | done t' => simp [he, CallEnd.outcome] at h1
  | hung => simp [he, CallEnd.outcome] at h1
  | panicked t' =>
    generalize (callsAll op (a.read m) t).1.length = k at hans hle
    rw [he, hans] at h1
    simp only [CallEnd.outcome, Res.panic.injEq, CS.mk.injEq] at h1
    rw [Sl.read_length] at hle
    have hl : (((a.read m).take k).map f).length = k := by simp; omega
    have hread := Sl.read_write_front m a (((a.read m).take k).map f) (by omega)
    rw [h1.1, hl] at hread
    cases he2 : (callsAll op (a.read m1) t2).2 with
    | panicked t' => simp [he2, CallEnd.outcome] at h2
    | hung => simp [he2, CallEnd.outcome] at h2
    | done t' =>
      rw [he2, callsAll_done hf he2] at h2
      simp only [CallEnd.outcome, Res.ok.injEq, CS.mk.injEq, true_and] at h2
      refine ⟨k, hle, ?_⟩
      rw [← h2.1, Sl.read_write_self _ _ _ (by simp), hread, List.map_append, List.map_map]
      rfl

/-! ## C108 -/

/-- C108: `FindIf` calls `cond` with the elements in order up to the first for which it says true, writes nothing, and panics or hangs
exactly if one of these calls does. -/
theorem C108_findIf (a : Sl) (cond : T → GoM σ Bool) (m : Mem T) (t : σ) :
    findIfC a (fun x => ownState (cond x)) ⟨m, t⟩ = (callsUntil id cond (a.read m) t).2.outcome m
      (if true ∈ (callsUntil id cond (a.read m) t).1 then ((((callsUntil id cond (a.read m) t).1.length - 1 : Nat) : Int), true) else (-1, false)) :=
  findIfC_eq a cond t

/-- C108: likewise `AnyOf`. -/
theorem C108_anyOf (a : Sl) (pred : T → GoM σ Bool) (m : Mem T) (t : σ) :
    anyOfC a (fun x => ownState (pred x)) ⟨m, t⟩ =
      (callsUntil id pred (a.read m) t).2.outcome m (decide (true ∈ (callsUntil id pred (a.read m) t).1)) := by
  have := anyOfLoopC_eq (m := m) a pred (a.read m) 0 t rfl
  simpa [anyOfC] using this

/-- C108: likewise `NoneOf`. -/
theorem C108_noneOf (a : Sl) (pred : T → GoM σ Bool) (m : Mem T) (t : σ) :
    noneOfC a (fun x => ownState (pred x)) ⟨m, t⟩ =
      (callsUntil id pred (a.read m) t).2.outcome m (decide (true ∉ (callsUntil id pred (a.read m) t).1)) := by
  simp only [noneOfC, GoM.bind_def, C108_anyOf]
  cases (callsUntil id pred (a.read m) t).2 <;> simp [CallEnd.outcome]

/-- C108: `AllOf` stops at the first false. -/
theorem C108_allOf (a : Sl) (pred : T → GoM σ Bool) (m : Mem T) (t : σ) :
    allOfC a (fun x => ownState (pred x)) ⟨m, t⟩ =
      (callsUntil (!·) pred (a.read m) t).2.outcome m (decide (false ∉ (callsUntil (!·) pred (a.read m) t).1)) := by
  have := allOfLoopC_eq (m := m) a pred (a.read m) 0 t rfl
  simpa [allOfC] using this

/-- C108: `CountIf` asks about every element. -/
theorem C108_countIf (a : Sl) (pred : T → GoM σ Bool) (m : Mem T) (t : σ) :
    countIfC a (fun x => ownState (pred x)) ⟨m, t⟩ =
      (callsAll pred (a.read m) t).2.outcome m ((callsAll pred (a.read m) t).1.count true) := by
  have := countIfLoopC_eq (m := m) a pred (a.read m) 0 0 t rfl
  simpa [countIfC] using this

/-- C108: `ForEach` of a vector. -/
theorem C108_forEach (v : Sl) (cb : T → GoM σ Unit) (m : Mem T) (t : σ) :
    Vec.forEachC v (fun x => ownState (cb x)) ⟨m, t⟩ = (callsAll cb (v.read m) t).2.outcome m () := by
  have := Vec.forEachLoopC_eq (m := m) v cb (v.read m) 0 t rfl
  simpa [Vec.forEachC] using this

/-- C108: `ForEachIf` of a vector. -/
theorem C108_forEachIf (v : Sl) (cb : T → GoM σ Bool) (m : Mem T) (t : σ) :
    Vec.forEachIfC v (fun x => ownState (cb x)) ⟨m, t⟩ = (callsUntil (!·) cb (v.read m) t).2.outcome m () := by
  have := Vec.forEachIfLoopC_eq (m := m) v cb (v.read m) 0 t rfl
  simpa [Vec.forEachIfC] using this

/-- C108: what `callsUntil` means. With `k` answers, all but the last did not stop it. It panicked or hung if the next call did;
otherwise the last answer stopped it or there are no more elements. -/
theorem C108_calls {α : Type} (stop : α → Bool) (cb : T → GoM σ α) (xs : List T) (t : σ) :
    (∀ i (h : i < (callsUntil stop cb xs t).1.length), i + 1 < (callsUntil stop cb xs t).1.length → stop (callsUntil stop cb xs t).1[i] = false) ∧
    ((∃ t', (callsUntil stop cb xs t).2 = .done t') →
      (callsUntil stop cb xs t).1.length = xs.length ∨ ∃ a, (callsUntil stop cb xs t).1.getLast? = some a ∧ stop a = true) ∧
    (∀ t', (callsUntil stop cb xs t).2 = .panicked t' → ∃ x t0, xs[(callsUntil stop cb xs t).1.length]? = some x ∧ cb x t0 = .panic t') ∧
    ((callsUntil stop cb xs t).2 = .hung → ∃ x t0, xs[(callsUntil stop cb xs t).1.length]? = some x ∧ cb x t0 = .diverge) := by
  induction xs generalizing t with
  | nil => simp [callsUntil]
  | cons x xs ih =>
    cases hc : cb x t with
    | panic t1 =>
      simp only [callsUntil, hc]
      refine ⟨by simp, by simp, ?_, by simp⟩
      intro t' h
      injection h with h
      exact ⟨x, t, by simp, by rw [hc, h]⟩
    | diverge =>
      simp only [callsUntil, hc]
      exact ⟨by simp, by simp, by simp, fun _ => ⟨x, t, by simp, hc⟩⟩
    | ok b t1 =>
      by_cases hs : stop b = true
      · have e : callsUntil stop cb (x :: xs) t = ([b], .done t1) := by simp [callsUntil, hc, hs]
        simp only [e]
        exact ⟨by simp, fun _ => .inr ⟨b, by simp, hs⟩, by simp, by simp⟩
      · have e : callsUntil stop cb (x :: xs) t = (b :: (callsUntil stop cb xs t1).1, (callsUntil stop cb xs t1).2) := by simp [callsUntil, hc, hs]
        simp only [e]
        obtain ⟨i1, i2, i3, i4⟩ := ih t1
        refine ⟨?_, ?_, ?_, ?_⟩
        · intro i h h'
          cases i with
          | zero => simpa using hs
          | succ i => simpa using i1 i (by simpa using h) (by simpa using h')
        · intro h
          rcases i2 h with h | ⟨a, h, h'⟩
          · exact .inl (by simpa using h)
          · refine .inr ⟨a, ?_, h'⟩
            simp only [List.getLast?_cons, h, Option.getD_some]
        · intro t' h
          simpa using i3 t' h
        · intro h
          simpa using i4 h

example : findIfC ⟨0, 4, 4⟩ (fun x => ownState (panicsAt 3 (fun v => decide (v > 2)) x)) ⟨memOf [1, 2, 3, 4], 0⟩ = .ok (2, true) ⟨memOf [1, 2, 3, 4], 3⟩ := by
  rw [C108_findIf]
  rfl
example : allOfC ⟨0, 4, 4⟩ (fun x => ownState (panicsAt 3 (fun v => decide (v < 9)) x)) ⟨memOf [1, 2, 3, 4], 0⟩ = .panic ⟨memOf [1, 2, 3, 4], 4⟩ := by
  rw [C108_allOf]
  rfl

/-! ## C109 -/

/-- C109: `RemoveIfCopy` leaves all memory there was as it was, also when the callback panics. -/
theorem C109_removeIfCopy [GoZero T] (grow : Nat → Nat → Nat) (a : Sl) (cond : T → GoM σ Bool) (m : Mem T) (t : σ) (ha : a.WF m) :
    ∃ r m', removeIfCopyC grow a (fun x => ownState (cond x)) ⟨m, t⟩ = (callsAll cond (a.read m) t).2.outcome m' r ∧ Fresh m m' r ∧
      r.read m' = keptBy (a.read m) (callsAll cond (a.read m) t).1 := removeIfCopyC_eq grow a cond m t ha

/-- C109: so does `TransformCopy`, here for one type. -/
theorem C109_transformCopy [GoZero T] (a : Sl) (op : T → GoM σ T) (m : Mem T) (t : σ) (ha : a.WF m) :
    ∃ r m', transformCopyC a.len (fun i => CS.on (a.get i)) (fun x => ownState (op x)) ⟨m, t⟩ = (callsAll op (a.read m) t).2.outcome m' r ∧
      Fresh m m' r ∧ r.len = a.len ∧ (callsAll op (a.read m) t).1 <+: r.read m' := by
  refine transformCopyC_eq a.len _ op (a.read m) (by simp) (fun _ => True) (fun _ _ _ _ _ _ => trivial) m t trivial ?_
  intro i hi m' u _ hk
  have hi' : i < a.len := by simpa using hi
  rw [CS.on_ok (Sl.get_ok a m' i hi')]
  congr 1
  rw [Sl.read_getElem, Sl.read_getElem]
  exact hk _ (by have := ha.1; have := ha.2; omega)

/-- C109: and for two types, when `op` leaves the source alone. -/
theorem C109_transformCopy_other [GoZero R] (a : Sl) (op : T → GoM (Mem T × σ) R) (hop : ∀ x t y t', op x t = .ok y t' → a.read t'.1 = a.read t.1)
    (m : Mem R) (t : Mem T × σ) :
    ∃ r m', transformCopyC a.len (readOtherC a) (fun x => ownState (op x)) ⟨m, t⟩ = (callsAll op (a.read t.1) t).2.outcome m' r ∧
      Fresh m m' r ∧ r.len = a.len ∧ (callsAll op (a.read t.1) t).1 <+: r.read m' := by
  refine transformCopyC_eq a.len _ op (a.read t.1) (by simp) (fun u => a.read u.1 = a.read t.1)
    (fun x u y u' hu e => by rw [hop x u y u' e]; exact hu) m t rfl ?_
  intro i hi m' u hu _
  have hi' : i < a.len := by simpa using hi
  simp only [readOtherC, Sl.get_ok a u.1 i hi', hu]

/-- C109: `TransformTo` with `b` not starting inside `a` writes only `b`'s array, or new memory. After a panic it has the results so far. -/
theorem C109_transformTo [GoZero T] (grow : Nat → Nat → Nat) (a b : Sl) (op : T → GoM σ T) (m : Mem T) (t : σ) (ha : a.WF m) (hb : b.WF m)
    (hov : b.off ≤ a.off ∨ a.off + a.len ≤ b.off) :
    ∃ r m', transformToC grow a.len (fun i => CS.on (a.get i)) (fun x => ownState (op x)) b ⟨m, t⟩ = (callsAll op (a.read m) t).2.outcome m' r ∧
      Into m b m' r (callsAll op (a.read m) t).1 :=
  transformToC_into grow a.len _ op (a.read m) (by simp) (fun _ => True) (fun _ _ _ _ _ _ => trivial) t trivial b m hb
    (fun i m' => ∀ k, i ≤ k → k < a.len → m'.cell (a.off + k) = m.cell (a.off + k))
    (by
      intro i hi m' u _ hS
      have hi' : i < a.len := by simpa using hi
      rw [CS.on_ok (Sl.get_ok a m' i hi')]
      congr 1
      rw [Sl.read_getElem, Sl.read_getElem]
      exact hS i (Nat.le_refl _) hi')
    (by
      intro i m1 m2 hi hS htop hfr k hik hk
      rw [hfr (a.off + k) (by have := ha.1; have := ha.2; omega) (by intro; omega)]
      exact hS k (by omega) hk)
    (fun _ _ _ => rfl)

/-- C109: and for two types, when `op` leaves the source alone. -/
theorem C109_transformTo_other [GoZero R] (grow : Nat → Nat → Nat) (a b : Sl) (op : T → GoM (Mem T × σ) R)
    (hop : ∀ x t y t', op x t = .ok y t' → a.read t'.1 = a.read t.1) (m : Mem R) (t : Mem T × σ) (hb : b.WF m) :
    ∃ r m', transformToC grow a.len (readOtherC a) (fun x => ownState (op x)) b ⟨m, t⟩ = (callsAll op (a.read t.1) t).2.outcome m' r ∧
      Into m b m' r (callsAll op (a.read t.1) t).1 :=
  transformToC_into grow a.len _ op (a.read t.1) (by simp) (fun u => a.read u.1 = a.read t.1)
    (fun x u y u' hu e => by rw [hop x u y u' e]; exact hu) t rfl b m hb (fun _ _ => True)
    (by
      intro i hi m' u hu _
      have hi' : i < a.len := by simpa using hi
      simp only [readOtherC, Sl.get_ok a u.1 i hi', hu])
    (fun _ _ _ _ _ _ _ => trivial) trivial

example : foundIn ⟨0, 6, 6⟩ (transformToC (fun _ n => n) 3 (fun i => CS.on (Sl.get ⟨0, 3, 3⟩ i)) (fun x => ownState (panicsAt 2 (· * 10) x)) ⟨3, 1, 3⟩
    ⟨memOf [1, 2, 3, 7, 8, 9], 0⟩) = some [1, 2, 3, 10, 20, 9] := by decide +kernel

end Stl4go
