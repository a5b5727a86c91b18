import Verif.Spec.Callback
import Verif.Proofs.TransformCopy
/-! # Lemmas: callbacks with a state of their own that may panic or hang -/
namespace Stl4go
variable {T R σ α β ρ : Type}

theorem CS.get_at (a : Sl) (s : CS T ρ) (i : Nat) {x : T} {xs : List T} (h : (a.read s.mem).drop i = x :: xs) :
    CS.on (a.get i) s = .ok x s ∧ i < a.len ∧ (a.read s.mem).drop (i + 1) = xs := by
  have hi : i < a.len := by
    apply Decidable.byContradiction
    intro hn
    rw [List.drop_eq_nil_of_le (by simp; omega)] at h
    exact List.cons_ne_nil _ _ h.symm
  rw [List.drop_eq_getElem_cons (by simpa using hi)] at h
  injection h with h1 h2
  refine ⟨?_, hi, h2⟩
  unfold CS.on
  rw [Sl.get_ok _ _ _ hi, h1]

theorem CS.on_ok {x : GoM (Mem T) α} {s : CS T ρ} {a : α} {m : Mem T} (h : x s.mem = .ok a m) : CS.on x s = .ok a { s with mem := m } := by
  unfold CS.on; rw [h]

/-- The start of a loop over a slice. -/
theorem drop_zero (a : Sl) (m : Mem T) : (a.read m).drop 0 = a.read m := rfl

section
variable {m : Mem T}

theorem findIfLoopC_eq (a : Sl) (cond : T → GoM σ Bool) (xs : List T) : ∀ (i : Nat) (t : σ), (a.read m).drop i = xs →
    findIfLoopC a (fun x => ownState (cond x)) xs.length i ⟨m, t⟩ =
      (callsUntil id cond xs t).2.outcome m
        (if true ∈ (callsUntil id cond xs t).1 then (((i + (callsUntil id cond xs t).1.length - 1 : Nat) : Int), true) else (-1, false)) := by
  induction xs with
  | nil => intro i t _; rfl
  | cons x xs ih =>
    intro i t h
    obtain ⟨h1, h2, h3⟩ := CS.get_at a ⟨m, t⟩ i h
    simp only [List.length_cons, findIfLoopC, GoM.bind_ok h1, GoM.bind_def, ownState]
    cases hc : cond x t with
    | panic t' => simp [callsUntil, hc, CallEnd.outcome]
    | diverge => simp [callsUntil, hc, CallEnd.outcome]
    | ok b t' =>
      cases b with
      | true => simp [callsUntil, hc, CallEnd.outcome]
      | false =>
        simp only [Bool.false_eq_true, if_false]
        rw [ih _ _ h3]
        simp only [callsUntil, hc, id, Bool.false_eq_true, if_false, List.mem_cons, false_or, List.length_cons, reduceCtorEq]
        congr 2
        congr 2
        omega

theorem findIfC_eq (a : Sl) (cond : T → GoM σ Bool) (t : σ) :
    findIfC a (fun x => ownState (cond x)) ⟨m, t⟩ = (callsUntil id cond (a.read m) t).2.outcome m
      (if true ∈ (callsUntil id cond (a.read m) t).1 then ((((callsUntil id cond (a.read m) t).1.length - 1 : Nat) : Int), true) else (-1, false)) := by
  have := findIfLoopC_eq (m := m) a cond (a.read m) 0 t rfl
  simpa [findIfC] using this

theorem anyOfLoopC_eq (a : Sl) (cond : T → GoM σ Bool) (xs : List T) : ∀ (i : Nat) (t : σ), (a.read m).drop i = xs →
    anyOfLoopC a (fun x => ownState (cond x)) xs.length i ⟨m, t⟩ =
      (callsUntil id cond xs t).2.outcome m (decide (true ∈ (callsUntil id cond xs t).1)) := by
  induction xs with
  | nil => intro i t _; rfl
  | cons x xs ih =>
    intro i t h
    obtain ⟨h1, h2, h3⟩ := CS.get_at a ⟨m, t⟩ i h
    simp only [List.length_cons, anyOfLoopC, GoM.bind_ok h1, GoM.bind_def, ownState]
    cases hc : cond x t with
    | panic t' => simp [callsUntil, hc, CallEnd.outcome]
    | diverge => simp [callsUntil, hc, CallEnd.outcome]
    | ok b t' =>
      cases b with
      | true => simp [callsUntil, hc, CallEnd.outcome]
      | false =>
        simp only [Bool.false_eq_true, if_false]
        rw [ih _ _ h3]
        simp [callsUntil, hc]

theorem allOfLoopC_eq (a : Sl) (cond : T → GoM σ Bool) (xs : List T) : ∀ (i : Nat) (t : σ), (a.read m).drop i = xs →
    allOfLoopC a (fun x => ownState (cond x)) xs.length i ⟨m, t⟩ =
      (callsUntil (!·) cond xs t).2.outcome m (decide (false ∉ (callsUntil (!·) cond xs t).1)) := by
  induction xs with
  | nil => intro i t _; rfl
  | cons x xs ih =>
    intro i t h
    obtain ⟨h1, h2, h3⟩ := CS.get_at a ⟨m, t⟩ i h
    simp only [List.length_cons, allOfLoopC, GoM.bind_ok h1, GoM.bind_def, ownState]
    cases hc : cond x t with
    | panic t' => simp [callsUntil, hc, CallEnd.outcome]
    | diverge => simp [callsUntil, hc, CallEnd.outcome]
    | ok b t' =>
      cases b with
      | false => simp [callsUntil, hc, CallEnd.outcome]
      | true =>
        simp only [Bool.true_eq_false, if_false]
        rw [ih _ _ h3]
        simp [callsUntil, hc]

theorem countIfLoopC_eq (a : Sl) (cond : T → GoM σ Bool) (xs : List T) : ∀ (i c : Nat) (t : σ), (a.read m).drop i = xs →
    countIfLoopC a (fun x => ownState (cond x)) xs.length i c ⟨m, t⟩ =
      (callsAll cond xs t).2.outcome m (c + (callsAll cond xs t).1.count true) := by
  induction xs with
  | nil => intro i c t _; rfl
  | cons x xs ih =>
    intro i c t h
    obtain ⟨h1, h2, h3⟩ := CS.get_at a ⟨m, t⟩ i h
    simp only [List.length_cons, countIfLoopC, GoM.bind_ok h1, GoM.bind_def, ownState]
    cases hc : cond x t with
    | panic t' => simp [callsUntil, hc, CallEnd.outcome]
    | diverge => simp [callsUntil, hc, CallEnd.outcome]
    | ok b t' =>
      cases b with
      | false =>
        simp only [Bool.false_eq_true, if_false]
        rw [ih _ _ _ h3]
        simp [callsUntil, hc]
      | true =>
        simp only [if_true]
        rw [ih _ _ _ h3]
        simp only [callsAll, callsUntil, hc, Bool.false_eq_true, if_false, List.count_cons_self]
        congr 1
        omega

theorem Vec.forEachLoopC_eq (a : Sl) (cb : T → GoM σ Unit) (xs : List T) : ∀ (i : Nat) (t : σ), (a.read m).drop i = xs →
    Vec.forEachLoopC a (fun x => ownState (cb x)) xs.length i ⟨m, t⟩ = (callsAll cb xs t).2.outcome m () := by
  induction xs with
  | nil => intro i t _; rfl
  | cons x xs ih =>
    intro i t h
    obtain ⟨h1, h2, h3⟩ := CS.get_at a ⟨m, t⟩ i h
    simp only [List.length_cons, Vec.forEachLoopC, GoM.bind_ok h1, GoM.bind_def, ownState]
    cases hc : cb x t with
    | panic t' => simp [callsUntil, hc, CallEnd.outcome]
    | diverge => simp [callsUntil, hc, CallEnd.outcome]
    | ok b t' =>
      simp only
      rw [ih _ _ h3]
      simp [callsUntil, hc]

theorem Vec.forEachIfLoopC_eq (a : Sl) (cb : T → GoM σ Bool) (xs : List T) : ∀ (i : Nat) (t : σ), (a.read m).drop i = xs →
    Vec.forEachIfLoopC a (fun x => ownState (cb x)) xs.length i ⟨m, t⟩ = (callsUntil (!·) cb xs t).2.outcome m () := by
  induction xs with
  | nil => intro i t _; rfl
  | cons x xs ih =>
    intro i t h
    obtain ⟨h1, h2, h3⟩ := CS.get_at a ⟨m, t⟩ i h
    simp only [List.length_cons, Vec.forEachIfLoopC, GoM.bind_ok h1, GoM.bind_def, ownState]
    cases hc : cb x t with
    | panic t' => simp [callsUntil, hc, CallEnd.outcome]
    | diverge => simp [callsUntil, hc, CallEnd.outcome]
    | ok b t' =>
      cases b with
      | false => simp [callsUntil, hc, CallEnd.outcome]
      | true =>
        simp only [Bool.true_eq_false, if_false]
        rw [ih _ _ h3]
        simp [callsUntil, hc]
end

/-! ## Loops that write -/

theorem Sl.drop_write (a : Sl) (m : Mem T) (j i : Nat) (ys : List T) (h : j + ys.length ≤ i) :
    (a.read (m.write (a.off + j) ys)).drop i = (a.read m).drop i := by
  apply List.ext_getElem (by simp)
  intro k h1 h2
  simp only [List.getElem_drop, Sl.read_getElem]
  rw [Mem.write_out _ _ _ _ (by omega)]

theorem CS.put_at (a : Sl) (m : Mem T) (t : ρ) (j : Nat) (v : T) (h : j < a.len) :
    CS.on (a.put j v) (⟨m, t⟩ : CS T ρ) = .ok () ⟨m.write (a.off + j) [v], t⟩ := by
  unfold CS.on Sl.put
  rw [if_pos (by omega)]
  simp

theorem write_cons (m : Mem T) (o : Nat) (x : T) (xs : List T) : (m.write o [x]).write (o + 1) xs = m.write o (x :: xs) :=
  Mem.write_append m o [x] xs

theorem removeIfLoopC_eq (a : Sl) (cond : T → GoM σ Bool) (xs : List T) : ∀ (i j : Nat) (m : Mem T) (t : σ), (a.read m).drop i = xs → j ≤ i →
    removeIfLoopC a (fun x => ownState (cond x)) xs.length i j ⟨m, t⟩ =
      (callsAll cond xs t).2.outcome (m.write (a.off + j) (keptBy xs (callsAll cond xs t).1)) (j + (keptBy xs (callsAll cond xs t).1).length) := by
  induction xs with
  | nil => intro i j m t _ _; simp [removeIfLoopC, callsUntil, keptBy, CallEnd.outcome]
  | cons x xs ih =>
    intro i j m t h hj
    obtain ⟨h1, h2, h3⟩ := CS.get_at a ⟨m, t⟩ i h
    simp only [List.length_cons, removeIfLoopC, GoM.bind_ok h1, GoM.bind_def, ownState]
    cases hc : cond x t with
    | panic t' => simp [callsUntil, hc, CallEnd.outcome, keptBy]
    | diverge => simp [callsUntil, hc, CallEnd.outcome]
    | ok b t' =>
      cases b with
      | true =>
        simp only [Bool.true_eq_false, if_false]
        rw [ih _ _ _ _ h3 (by omega)]
        simp [callsUntil, hc, keptBy]
      | false =>
        simp only [if_true, GoM.bind_def]
        rw [CS.put_at a m t' j x (by omega)]
        simp only
        rw [ih (i + 1) (j + 1) _ _ (by rw [Sl.drop_write _ _ _ _ _ (by simp; omega)]; exact h3) (by omega)]
        simp only [callsAll, callsUntil, hc, Bool.false_eq_true, if_false, keptBy, List.length_cons]
        rw [← Nat.add_assoc, write_cons]
        congr 1
        omega

theorem keptBy_length_le (xs : List T) (bs : List Bool) : (keptBy xs bs).length ≤ xs.length := by
  induction xs generalizing bs with
  | nil => cases bs <;> simp [keptBy]
  | cons x xs ih =>
    cases bs with
    | nil => simp [keptBy]
    | cons b bs =>
      have := ih bs
      simp only [keptBy]
      split <;> simp <;> omega

theorem callsUntil_length_le (stop : α → Bool) (cb : T → GoM σ α) (xs : List T) (t : σ) : (callsUntil stop cb xs t).1.length ≤ xs.length := by
  induction xs generalizing t with
  | nil => simp [callsUntil]
  | cons x xs ih =>
    cases hc : cb x t with
    | panic t' => simp [callsUntil, hc]
    | diverge => simp [callsUntil, hc]
    | ok b t' =>
      have := ih t'
      simp only [callsUntil, hc]
      split
      · simp
      · simp; omega

theorem removeIfC_eq (a : Sl) (cond : T → GoM σ Bool) (m : Mem T) (t : σ) (ha : a.WF m) :
    removeIfC a (fun x => ownState (cond x)) ⟨m, t⟩ =
      (callsAll cond (a.read m) t).2.outcome (m.write a.off (keptBy (a.read m) (callsAll cond (a.read m) t).1))
        { a with len := (keptBy (a.read m) (callsAll cond (a.read m) t).1).length } := by
  have h := removeIfLoopC_eq a cond (a.read m) 0 0 m t rfl (Nat.le_refl _)
  have hk := keptBy_length_le (a.read m) (callsAll cond (a.read m) t).1
  simp only [Sl.read_length, Nat.add_zero, Nat.zero_add] at h hk
  simp only [removeIfC, GoM.bind_def, h]
  cases he : (callsAll cond (a.read m) t).2 with
  | panicked t' => rfl
  | hung => rfl
  | done t' =>
    simp only [CallEnd.outcome]
    rw [CS.on_ok (Sl.slice_zero a _ _ (by have := ha.1; omega))]

theorem transformLoopC_eq (a : Sl) (op : T → GoM σ T) (xs : List T) : ∀ (i : Nat) (m : Mem T) (t : σ), (a.read m).drop i = xs →
    transformLoopC a (fun x => ownState (op x)) xs.length i ⟨m, t⟩ =
      (callsAll op xs t).2.outcome (m.write (a.off + i) (callsAll op xs t).1) () := by
  induction xs with
  | nil => intro i m t _; simp [transformLoopC, callsUntil, CallEnd.outcome]
  | cons x xs ih =>
    intro i m t h
    obtain ⟨h1, h2, h3⟩ := CS.get_at a ⟨m, t⟩ i h
    simp only [List.length_cons, transformLoopC, GoM.bind_ok h1, GoM.bind_def, ownState]
    cases hc : op x t with
    | panic t' => simp [callsUntil, hc, CallEnd.outcome]
    | diverge => simp [callsUntil, hc, CallEnd.outcome]
    | ok r t' =>
      simp only
      rw [CS.put_at a m t' i r h2]
      simp only
      rw [ih (i + 1) _ _ (by rw [Sl.drop_write _ _ _ _ _ (by simp)]; exact h3)]
      simp only [callsAll, callsUntil, hc, Bool.false_eq_true, if_false]
      rw [← Nat.add_assoc, write_cons]

theorem replaceIfLoopC_eq (a : Sl) (pred : T → GoM σ Bool) (new : T) (xs : List T) : ∀ (i : Nat) (m : Mem T) (t : σ), (a.read m).drop i = xs →
    replaceIfLoopC a (fun x => ownState (pred x)) new xs.length i ⟨m, t⟩ =
      (callsAll pred xs t).2.outcome (m.write (a.off + i) (List.zipWith (fun x b => if b = true then new else x) xs (callsAll pred xs t).1)) () := by
  induction xs with
  | nil => intro i m t _; simp [replaceIfLoopC, callsUntil, CallEnd.outcome]
  | cons x xs ih =>
    intro i m t h
    obtain ⟨h1, h2, h3⟩ := CS.get_at a ⟨m, t⟩ i h
    simp only [List.length_cons, replaceIfLoopC, GoM.bind_ok h1, GoM.bind_def, ownState]
    cases hc : pred x t with
    | panic t' => simp [callsUntil, hc, CallEnd.outcome]
    | diverge => simp [callsUntil, hc, CallEnd.outcome]
    | ok b t' =>
      cases b with
      | true =>
        simp only [if_true, GoM.bind_def]
        rw [CS.put_at a m t' i new h2]
        simp only
        rw [ih (i + 1) _ _ (by rw [Sl.drop_write _ _ _ _ _ (by simp)]; exact h3)]
        simp only [callsAll, callsUntil, hc, Bool.false_eq_true, if_false, List.zipWith_cons_cons, if_true]
        rw [← Nat.add_assoc, write_cons]
      | false =>
        simp only [Bool.false_eq_true, if_false]
        have hm : m = m.write (a.off + i) [x] := by
          refine Mem.ext' (fun k => ?_) rfl
          by_cases hk : k = a.off + i
          · subst hk
            have e := Mem.write_in m (a.off + i) [x] 0 (by simp)
            have e2 : (a.read m)[i]? = some x := by
              have := congrArg (·[0]?) h
              simpa using this
            rw [Sl.read_getElem?, if_pos h2] at e2
            simp only [Nat.add_zero, List.getElem_cons_zero] at e
            rw [e]
            exact Option.some.inj e2
          · rw [Mem.write_out _ _ _ _ (by simp; omega)]
        rw [ih _ _ _ h3]
        simp only [callsAll, callsUntil, hc, Bool.false_eq_true, if_false, List.zipWith_cons_cons]
        rw [← write_cons, ← hm, Nat.add_assoc]

theorem generateLoopC_eq (a : Sl) (gen : GoM σ T) (n : Nat) : ∀ (i : Nat) (m : Mem T) (t : σ), i + n ≤ a.len →
    generateLoopC a (ownState gen) n i ⟨m, t⟩ =
      (callsAll (fun _ : Unit => gen) (List.replicate n ()) t).2.outcome
        (m.write (a.off + i) (callsAll (fun _ : Unit => gen) (List.replicate n ()) t).1) () := by
  induction n with
  | zero => intro i m t _; simp [generateLoopC, callsUntil, CallEnd.outcome]
  | succ n ih =>
    intro i m t h
    simp only [generateLoopC, GoM.bind_def, ownState, List.replicate_succ]
    cases hc : gen t with
    | panic t' => simp [callsUntil, hc, CallEnd.outcome]
    | diverge => simp [callsUntil, hc, CallEnd.outcome]
    | ok r t' =>
      simp only
      rw [CS.put_at a m t' i r (by omega)]
      simp only
      rw [ih (i + 1) _ _ (by omega)]
      simp only [callsAll, callsUntil, hc, Bool.false_eq_true, if_false]
      rw [← Nat.add_assoc, write_cons]

end Stl4go
