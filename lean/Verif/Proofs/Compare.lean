import Verif.Proofs.Simple
import Verif.Spec.Compare
/-! # Lemmas for `compare.go` -/
namespace Stl4go
variable {T : Type}

theorem equalLoop_spec [GoEq T] (a b : List T) (hl : a.length = b.length) (rem i : Nat) (h : i + rem = a.length) :
    ∃ r, equalLoop a b rem i = .ret r ∧ (r = true ↔ EqSeq (a.drop i) (b.drop i)) := by
  induction rem generalizing i with
  | zero =>
    refine ⟨true, rfl, ?_⟩
    rw [List.drop_of_length_le (by omega), List.drop_of_length_le (by omega)]
    simp [EqSeq.nil]
  | succ rem ih =>
    have hia : i < a.length := by omega
    have hib : i < b.length := by omega
    simp only [equalLoop, idx_of_lt hia, idx_of_lt hib, Outcome.ret_bind]
    rw [List.drop_eq_getElem_cons hia, List.drop_eq_getElem_cons hib]
    cases hc : GoEq.eq a[i] b[i] with
    | false =>
      refine ⟨false, by simp, ?_⟩
      constructor
      · intro h; exact absurd h (by decide)
      · intro h; cases h with | cons h1 h2 => rw [hc] at h1; exact absurd h1 (by decide)
    | true =>
      obtain ⟨r, h1, h2⟩ := ih (i + 1) (by omega)
      refine ⟨r, by simp [h1], ?_⟩
      rw [h2]
      constructor
      · intro h; exact EqSeq.cons hc h
      · intro h; cases h with | cons h1 h2 => exact h2

theorem EqSeq.length [GoEq T] {a b : List T} (h : EqSeq a b) : a.length = b.length := by
  induction h with
  | nil => rfl
  | cons _ _ ih => simp [ih]

theorem compareLoop_spec [GoOrd T] [LawfulGoOrd T] (la : Nat) (b a : List T) (i : Nat) (hla : i + a.length = la)
    (hi : i ≤ b.length) :
    (compareLoop la b a i = .ret (-1) ∧ LexLt a (b.drop i)) ∨
    (compareLoop la b a i = .ret 0 ∧ EqSeq a (b.drop i)) ∨
    (compareLoop la b a i = .ret 1 ∧ LexLt (b.drop i) a) := by
  induction a generalizing i with
  | nil =>
    simp only [List.length_nil, Nat.add_zero] at hla
    subst hla
    by_cases h : i < b.length
    · left
      rw [List.drop_eq_getElem_cons h]
      exact ⟨by simp [compareLoop, h], LexLt.prefix⟩
    · right; left
      rw [List.drop_of_length_le (by omega)]
      exact ⟨by simp [compareLoop, h], EqSeq.nil⟩
  | cons v a ih =>
    by_cases h : i < b.length
    · rw [List.drop_eq_getElem_cons h]
      have hge : ¬ (b.length ≤ i) := by omega
      cases h1 : GoOrd.lt v b[i] with
      | true => left; exact ⟨by simp [compareLoop, h, h1, hge], LexLt.head h1⟩
      | false =>
        cases h2 : GoOrd.lt b[i] v with
        | true => right; right; exact ⟨by simp [compareLoop, h, h1, h2, hge], LexLt.head h2⟩
        | false =>
          have heq : GoEq.eq v b[i] = true := (LawfulGoOrd.eq_iff _ _).2 ⟨h1, h2⟩
          have heq' : GoEq.eq b[i] v = true := (LawfulGoOrd.eq_iff _ _).2 ⟨h2, h1⟩
          have hstep : compareLoop la b (v :: a) i = compareLoop la b a (i + 1) := by
            simp [compareLoop, h, h1, h2, hge]
          rw [hstep]
          rcases ih (i + 1) (by simp only [List.length_cons] at hla; omega) (by omega) with ⟨e, l⟩ | ⟨e, l⟩ | ⟨e, l⟩
          · left; exact ⟨e, LexLt.tail heq l⟩
          · right; left; exact ⟨e, EqSeq.cons heq l⟩
          · right; right; exact ⟨e, LexLt.tail heq' l⟩
    · right; right
      rw [List.drop_of_length_le (by omega)]
      have hge : b.length ≤ i := by omega
      exact ⟨by simp [compareLoop, hge], LexLt.prefix⟩

theorem EqSeq.refl [GoEq T] [LawfulGoEq T] (a : List T) : EqSeq a a := by
  induction a with
  | nil => exact .nil
  | cons x a ih => exact .cons (LawfulGoEq.refl x) ih

theorem EqSeq.symm [GoEq T] [LawfulGoEq T] {a b : List T} (h : EqSeq a b) : EqSeq b a := by
  induction h with
  | nil => exact .nil
  | cons h _ ih => exact .cons (LawfulGoEq.symm _ _ h) ih

theorem LexLt.not_eqSeq [GoOrd T] [LawfulGoOrd T] {a b : List T} (h : LexLt a b) : ¬ EqSeq a b := by
  induction h with
  | «prefix» => intro h; cases h
  | head h =>
    intro he; cases he with
    | cons h1 _ => rw [LawfulGoOrd.eq_iff, h] at h1; exact absurd h1.1 (by decide)
  | tail _ _ ih => intro he; cases he with | cons _ h2 => exact ih h2

theorem LexLt.asymm [GoOrd T] [LawfulGoOrd T] {a b : List T} (h : LexLt a b) : ¬ LexLt b a := by
  induction h with
  | «prefix» => intro h; cases h
  | head h =>
    intro hb; cases hb with
    | head h1 => rw [LawfulGoOrd.weak.asymm h] at h1; exact absurd h1 (by decide)
    | tail h1 _ => rw [LawfulGoOrd.eq_iff, h] at h1; exact absurd h1.2 (by decide)
  | tail he _ ih =>
    intro hb; cases hb with
    | head h1 => rw [LawfulGoOrd.eq_iff, h1] at he; exact absurd he.2 (by decide)
    | tail _ h2 => exact ih h2

theorem lt_congr_left [GoOrd T] [LawfulGoOrd T] {x y z : T} (h : GoEq.eq x y = true) (hl : GoOrd.lt y z = true) :
    GoOrd.lt x z = true := by
  rw [LawfulGoOrd.eq_iff] at h
  exact LawfulGoOrd.weak.lt_of_not_of_lt h.2 hl

theorem lt_congr_right [GoOrd T] [LawfulGoOrd T] {x y z : T} (hl : GoOrd.lt x y = true) (h : GoEq.eq y z = true) :
    GoOrd.lt x z = true := by
  rw [LawfulGoOrd.eq_iff] at h
  exact LawfulGoOrd.weak.lt_of_lt_of_not hl h.2

theorem LexLt.trans [GoOrd T] [LawfulGoOrd T] {a b c : List T} (h : LexLt a b) (h' : LexLt b c) : LexLt a c := by
  induction h generalizing c with
  | «prefix» => cases h' <;> exact .prefix
  | head h =>
    cases h' with
    | head h1 => exact .head (LawfulGoOrd.weak.trans _ _ _ h h1)
    | tail h1 _ => exact .head (lt_congr_right h h1)
  | tail he _ ih =>
    cases h' with
    | head h1 => exact .head (lt_congr_left he h1)
    | tail h1 h2 => exact .tail (LawfulGoEq.trans _ _ _ he h1) (ih h2)

end Stl4go
