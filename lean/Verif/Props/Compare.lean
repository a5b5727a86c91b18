import Verif.Proofs.Compare
/-! # Properties C65-C67: `/repo/compare.go`, `/repo/functor.go` -/
namespace Stl4go
variable {T : Type}

/-! ## C65 -/

/-- C65: `Equal` always returns, and returns true iff the slices are element-wise equal. -/
theorem C65_equal [GoEq T] (a b : List T) : ∃ r, equal a b = .ret r ∧ (r = true ↔ EqSeq a b) := by
  unfold equal
  by_cases h : a.length = b.length
  · obtain ⟨r, h1, h2⟩ := equalLoop_spec a b h a.length 0 (by omega)
    exact ⟨r, by simp [h, ← h1], by simpa using h2⟩
  · refine ⟨false, by simp [h], ?_⟩
    constructor
    · intro h; exact absurd h (by decide)
    · intro he; exact absurd he.length h

example : equal [1, 2, (3 : Int)] [1, 2, 3] = .ret true ∧ equal [1, (2 : Int)] [1, 2, 3] = .ret false ∧
    equal [NanInt.nan] [NanInt.nan] = .ret false := by decide

/-! ## C66 -/

/-- C66: `Compare` returns -1, 0 or 1, exactly when `a` is lexicographically before, equal to, after `b`. -/
theorem C66_compare_lex [GoOrd T] [LawfulGoOrd T] (a b : List T) :
    (compare a b = .ret (-1) ↔ LexLt a b) ∧ (compare a b = .ret 0 ↔ EqSeq a b) ∧
    (compare a b = .ret 1 ↔ LexLt b a) ∧
    (compare a b = .ret (-1) ∨ compare a b = .ret 0 ∨ compare a b = .ret 1) := by
  have h := compareLoop_spec a.length b a 0 (by omega) (by omega)
  simp only [List.drop_zero] at h
  unfold compare
  rcases h with ⟨e, l⟩ | ⟨e, l⟩ | ⟨e, l⟩ <;> rw [e] <;> simp
  · exact ⟨l, l.not_eqSeq, l.asymm⟩
  · exact ⟨fun h => h.not_eqSeq l, l, fun h => h.not_eqSeq l.symm⟩
  · exact ⟨l.asymm, fun h => l.not_eqSeq h.symm, l⟩

/-- C66: antisymmetry — swapping the arguments negates the result. -/
theorem C66_compare_antisymm [GoOrd T] [LawfulGoOrd T] (a b : List T) (r : Int) (h : compare a b = .ret r) :
    compare b a = .ret (-r) := by
  obtain ⟨h1, h2, h3, h4⟩ := C66_compare_lex a b
  obtain ⟨g1, g2, g3, _⟩ := C66_compare_lex b a
  rcases h4 with e | e | e <;> rw [e] at h <;> cases h
  · exact g3.2 (h1.1 e)
  · exact g2.2 (h2.1 e).symm
  · exact g1.2 (h3.1 e)

/-- C66: transitivity. -/
theorem C66_compare_trans [GoOrd T] [LawfulGoOrd T] (a b c : List T) (h1 : compare a b = .ret (-1))
    (h2 : compare b c = .ret (-1)) : compare a c = .ret (-1) :=
  (C66_compare_lex a c).1.2 (LexLt.trans ((C66_compare_lex a b).1.1 h1) ((C66_compare_lex b c).1.1 h2))

/-- C66: zero iff `Equal`. -/
theorem C66_compare_zero_iff_equal [GoOrd T] [LawfulGoOrd T] (a b : List T) :
    compare a b = .ret 0 ↔ equal a b = .ret true := by
  rw [(C66_compare_lex a b).2.1]
  obtain ⟨r, h1, h2⟩ := C65_equal a b
  rw [h1, ← h2]; simp

example : compare [1, 2, (3 : Int)] [1, 3] = .ret (-1) ∧ compare [1, (2 : Int)] [1] = .ret 1 ∧
    compare ["a"] ["a", "b"] = .ret (-1) := by decide

/-! ## C67 -/

/-- C67: the three results of `OrderedCompare` and what they mean. -/
theorem C67_orderedCompare [GoOrd T] [LawfulGoOrd T] (a b : T) :
    (orderedCompare a b = -1 ↔ lessF a b = true) ∧ (orderedCompare a b = 1 ↔ greaterF a b = true) ∧
    (orderedCompare a b = 0 ↔ GoEq.eq a b = true) ∧ (lessF a b = true ↔ greaterF b a = true) ∧
    (lessF a b = true ↔ GoOrd.lt a b = true) := by
  unfold orderedCompare lessF greaterF
  rw [LawfulGoOrd.eq_iff]
  cases h1 : GoOrd.lt a b with
  | true => simp [LawfulGoOrd.weak.asymm h1]
  | false => cases h2 : GoOrd.lt b a <;> simp

/-- C67: antisymmetric, transitive, reflexive. -/
theorem C67_orderedCompare_laws [GoOrd T] [LawfulGoOrd T] (a b c : T) :
    orderedCompare b a = - orderedCompare a b ∧ orderedCompare a a = 0 ∧
    (orderedCompare a b ≤ 0 → orderedCompare b c ≤ 0 → orderedCompare a c ≤ 0) := by
  refine ⟨?_, ?_, ?_⟩
  · unfold orderedCompare
    cases h1 : GoOrd.lt a b with
    | true => simp [LawfulGoOrd.weak.asymm h1]
    | false => cases h2 : GoOrd.lt b a <;> simp
  · simp [orderedCompare, LawfulGoOrd.weak.irrefl]
  · have key : ∀ x y : T, orderedCompare x y ≤ 0 ↔ GoOrd.lt y x = false := by
      intro x y
      unfold orderedCompare
      cases h1 : GoOrd.lt x y with
      | true => simp [LawfulGoOrd.weak.asymm h1]
      | false => cases h2 : GoOrd.lt y x <;> simp
    rw [key, key, key]
    intro h1 h2
    exact LawfulGoOrd.weak.negTrans h2 h1

example : orderedCompare "b" "a" = 1 ∧ orderedCompare (2 : Int) 2 = 0 := by decide

end Stl4go
