import Verif.Spec.ReadBound
import Verif.Proofs.FoundBound
import Verif.Spec.Compare
import Verif.Spec.Numeric
/-! # Lemmas: which elements have to be looked at -/
namespace Stl4go
variable {T R : Type}

/-- A change of an element that is not looked at makes no difference. -/
theorem ReadProg.run_set {xs : List T} {i : Nat} {y : T} (p : ReadProg T R) : ∀ {r : R} {ps : List Nat}, p.run xs = some (r, ps) → i ∉ ps → p.run (xs.set i y) = some (r, ps) := by
  induction p with
  | done r => intro _ _ h _; exact h
  | read j k ih =>
    intro r ps h hi
    simp only [ReadProg.run] at h ⊢
    cases e : xs[j]? with
    | none => rw [e] at h; cases h
    | some x =>
      rw [e] at h
      simp only at h
      obtain ⟨⟨r1, ps1⟩, e1, e2⟩ := Option.map_eq_some_iff.1 h
      injection e2 with e3 e4
      subst e3; subst e4
      simp only [List.mem_cons, not_or] at hi
      rw [List.getElem?_set_ne (by omega), e]
      simp only [ih x e1 hi.2, Option.map_some]

theorem split_set {xs : List T} {i : Nat} (hi : i < xs.length) : ∃ l x r, xs = l ++ x :: r ∧ ∀ y, xs.set i y = l ++ y :: r :=
  ⟨xs.take i, xs[i], xs.drop (i + 1), by simp, fun y => by rw [List.set_eq_take_append_cons_drop, if_pos hi]⟩

/-- If each element can be changed so that the answer changes, each has to be looked at. -/
theorem mustReadAll {legal : T → Prop} {f : List T → R} {xs : List T} (hx : ∀ x ∈ xs, legal x)
    (h : ∀ l x r, xs = l ++ x :: r → ∃ y, legal y ∧ f (l ++ y :: r) ≠ f xs) : MustReadAll legal f xs := by
  intro p hp
  obtain ⟨ps, e⟩ := hp xs rfl hx
  have hall : ∀ i, i < xs.length → i ∈ ps := fun i hi => Classical.byContradiction fun hc => by
    obtain ⟨l, x, r, e1, e2⟩ := split_set hi
    obtain ⟨y, hy, hne⟩ := h l x r e1
    rw [← e2] at hne
    obtain ⟨ps', e'⟩ := hp (xs.set i y) (by simp) (fun z hz => by
      rw [e2] at hz
      rcases List.mem_append.1 hz with hz | hz
      · exact hx z (by rw [e1]; exact List.mem_append_left _ hz)
      · rcases List.mem_cons.1 hz with rfl | hz
        · exact hy
        · exact hx z (by rw [e1]; exact List.mem_append_right _ (List.mem_cons_of_mem _ hz)))
    rw [p.run_set e hc] at e'
    injection e' with e'
    injection e' with e' _
    exact hne e'.symm
  exact ⟨ps, e, hall, length_of_all _ _ hall⟩

theorem visit_reads {S : Type} (e : Nat → S → Look T) (he : ∀ i v, (e i v).isRead = false) (l : List S) (k : Nat) (hk : k ≤ l.length) :
    readsOf (visit (fun i v => [.a i, e i v]) l k) = (List.range k).map .a := by
  have aux : ∀ (m : List S) (n : Nat), readsOf ((m.zipIdx n).flatMap fun v => [.a v.2, e v.2 v.1]) = (List.range' n m.length).map .a := by
    intro m
    induction m with
    | nil => intro n; rfl
    | cons v m ih =>
      intro n
      rw [List.zipIdx_cons, List.flatMap_cons, List.length_cons, List.range'_succ, List.map_cons, ← ih (n + 1)]
      unfold readsOf
      simp only [List.filter_append, List.filter_cons, he, show ∀ j, (Look.a j : Look T).isRead = true from fun _ => rfl, List.filter_nil, if_true, Bool.false_eq_true, if_false, List.cons_append, List.nil_append]
  unfold visit
  rw [aux, List.length_take, Nat.min_eq_left hk, List.range_eq_range']

theorem eqSeq_length [GoEq T] {a b : List T} (h : EqSeq a b) : a.length = b.length := by
  induction h with
  | nil => rfl
  | cons _ _ ih => simp [ih]

theorem eqSeq_int {a b : List Int} (h : EqSeq a b) : a = b := by
  induction h with
  | nil => rfl
  | cons h _ ih => simp only [ih, List.cons.injEq, and_true]; simpa [GoEq.eq] using h

theorem holds_zero_one {w : Nat} (hw : w = 32 ∨ w = 64) (g : GoInt) : g.Holds w 0 ∧ g.Holds w 1 := by
  rcases hw with rfl | rfl <;> cases g <;> decide

end Stl4go
