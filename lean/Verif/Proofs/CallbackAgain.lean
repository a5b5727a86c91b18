import Verif.Proofs.CallbackCopy
/-! # Lemmas: what the answers of a callback with a fixed meaning amount to -/
namespace Stl4go
variable {T R σ α : Type}

theorem Sl.read_write_front (m : Mem T) (a : Sl) (ys : List T) (h : ys.length ≤ a.len) :
    a.read (m.write a.off ys) = ys ++ (a.read m).drop ys.length := by
  apply List.ext_getElem (by simp; omega)
  intro i h1 h2
  rw [Sl.read_getElem]
  by_cases hi : i < ys.length
  · rw [Mem.write_in _ _ _ i hi, List.getElem_append_left hi]
  · rw [Mem.write_out _ _ _ _ (by omega), List.getElem_append_right (by omega), List.getElem_drop, Sl.read_getElem]
    congr 2; omega

/-- Answers given by a function: those for the elements passed. -/
theorem callsAll_answers {cb : T → GoM σ α} {f : T → α} (hf : ∀ x t b t', cb x t = .ok b t' → b = f x) (xs : List T) (t : σ) :
    (callsAll cb xs t).1 = (xs.take (callsAll cb xs t).1.length).map f := by
  induction xs generalizing t with
  | nil => rfl
  | cons x xs ih =>
    cases hc : cb x t with
    | panic t' => simp [callsUntil, hc]
    | diverge => simp [callsUntil, hc]
    | ok b t' =>
      simp only [callsAll, callsUntil, hc, Bool.false_eq_true, if_false, List.length_cons, List.take_succ_cons, List.map_cons]
      rw [← hf x t b t' hc]
      exact congrArg (b :: ·) (ih t')

theorem callsAll_done {cb : T → GoM σ α} {f : T → α} (hf : ∀ x t b t', cb x t = .ok b t' → b = f x) {xs : List T} {t t' : σ}
    (h : (callsAll cb xs t).2 = .done t') : (callsAll cb xs t).1 = xs.map f := by
  rw [callsAll_answers hf, callsAll_length h, List.take_length]

theorem keptBy_map (p : T → Bool) (xs : List T) (k : Nat) : keptBy xs ((xs.take k).map p) = (xs.take k).filter (fun x => !p x) := by
  induction xs generalizing k with
  | nil => simp [keptBy]
  | cons x xs ih =>
    cases k with
    | zero => simp [keptBy]
    | succ k =>
      simp only [List.take_succ_cons, List.map_cons, keptBy, ih, List.filter_cons]
      cases p x <;> simp

theorem keptBy_map_all (p : T → Bool) (xs : List T) : keptBy xs (xs.map p) = xs.filter (fun x => !p x) := by
  have := keptBy_map p xs xs.length
  simpa using this

theorem zipWith_replace (p : T → Bool) (new : T) (xs : List T) (k : Nat) :
    List.zipWith (fun x b => if b = true then new else x) xs ((xs.take k).map p) = (xs.take k).map (fun x => if p x = true then new else x) := by
  induction xs generalizing k with
  | nil => simp
  | cons x xs ih =>
    cases k with
    | zero => simp
    | succ k => simp only [List.take_succ_cons, List.map_cons, List.zipWith_cons_cons, ih]

theorem keptBy_take (xs : List T) (bs : List Bool) : keptBy xs bs = keptBy (xs.take bs.length) bs := by
  induction xs generalizing bs with
  | nil => simp
  | cons x xs ih =>
    cases bs with
    | nil => simp [keptBy]
    | cons b bs => simp only [keptBy, List.length_cons, List.take_succ_cons]; rw [← ih]

theorem keptBy_sublist (xs : List T) (bs : List Bool) : (keptBy xs bs).Sublist xs := by
  induction xs generalizing bs with
  | nil => cases bs <;> simp [keptBy]
  | cons x xs ih =>
    cases bs with
    | nil => simp [keptBy]
    | cons b bs =>
      simp only [keptBy]
      split
      · exact (ih bs).cons _
      · exact (ih bs).cons_cons _

/-- Slots past the kept elements hold the elements that come from there on, the unseen ones among them. -/
theorem kept_then_unseen (xs : List T) (bs : List Bool) (hb : bs.length ≤ xs.length) :
    (keptBy xs bs ++ xs.drop bs.length).Sublist (keptBy xs bs ++ xs.drop (keptBy xs bs).length) := by
  apply List.Sublist.append (List.Sublist.refl _)
  have h : (keptBy xs bs).length ≤ bs.length := by
    rw [keptBy_take]
    refine Nat.le_trans (keptBy_length_le _ _) ?_
    simp; omega
  have e : xs.drop bs.length = (xs.drop (keptBy xs bs).length).drop (bs.length - (keptBy xs bs).length) := by
    rw [List.drop_drop]; congr 1; omega
  rw [e]
  exact List.drop_sublist _ _

end Stl4go
