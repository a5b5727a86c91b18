import Verif.Spec.TestHelper
import Verif.Model.Stack
/-!
# Property C157: the assertions of `/repo/test_helper.go`
-/
namespace Stl4go
variable {T W V : Type}

theorem reportMismatch_eq (shows : T → List Char) (t : TestRun W) (a : T) (op : String) (b : T) :
    reportMismatch shows t a op.toList b =
      { logged := t.logged ++ [some ("Wrong: ".toList ++ mismatch (shows a) op (shows b) ++ "\n".toList)], failed := true, w := t.w } := by
  simp [reportMismatch, reportText, report, TestRun.errorf, sprintf, mismatch]

theorem Complains.mismatch (shows : T → List Char) (t : TestRun W) (a : T) (op : String) (b : T) :
    Complains (mismatch (shows a) op (shows b)) t (reportMismatch shows t a op.toList b) := by
  rw [reportMismatch_eq]; exact ⟨rfl, rfl, rfl⟩

theorem expect_holds {shows : T → List Char} {t : TestRun W} {a b : T} {op : String} {P : Prop} (c : Bool) (h : c = true ↔ P) :
    (P → (if !c then reportMismatch shows t a op.toList b else t) = t) ∧
      (¬ P → Complains (mismatch (shows a) op (shows b)) t (if !c then reportMismatch shows t a op.toList b else t)) := by
  cases c with
  | true => exact ⟨fun _ => rfl, fun n => absurd (h.1 rfl) n⟩
  | false => exact ⟨fun p => absurd (h.2 p) (by simp), fun _ => Complains.mismatch shows t a op b⟩

/-- C157: an assertion about two values does nothing if the relation holds, and otherwise fails the test with one message that shows the first value, the
relation and the second value, whatever these look like. It always returns. -/
theorem C157_relations [GoOrd T] (r : Rel) (shows : T → List Char) (t : TestRun W) (a b : T) :
    (r.Holds a b → r.expect shows t a b = t) ∧
      (¬ r.Holds a b → Complains (mismatch (shows a) r.symbol (shows b)) t (r.expect shows t a b)) := by
  cases r
  · exact expect_holds (GoEq.eq a b) Iff.rfl
  · exact expect_holds (!GoEq.eq a b) (by simp [Rel.Holds])
  · exact expect_holds (GoOrd.lt a b) Iff.rfl
  · exact expect_holds (GoOrd.lt b a) Iff.rfl
  · exact expect_holds (GoOrd.lt a b || GoEq.eq a b) (by simp [Rel.Holds])
  · exact expect_holds (GoOrd.ge a b) (by simp [Rel.Holds, GoOrd.ge])

/-- C157: `expectTrue` and `expectFalse`. -/
theorem C157_bools (t : TestRun W) :
    expectTrue t true = t ∧ expectFalse t false = t ∧ Complains "false == true".toList t (expectTrue t false) ∧
      Complains "true == false".toList t (expectFalse t true) :=
  ⟨rfl, rfl, Complains.mismatch showBool t false "==" true, Complains.mismatch showBool t true "==" false⟩

/-- C157: a test that makes any number of assertions makes all of them, logs exactly the messages of those that do not hold, and fails exactly if there is one. -/
theorem C157_tests [GoOrd T] (shows : T → List Char) (holds : Rel → T → T → Bool) (hh : ∀ r a b, holds r a b = true ↔ r.Holds a b)
    (l : List (Rel × T × T)) (t : TestRun W) :
    let t' := l.foldl (fun t c => c.1.expect shows t c.2.1 c.2.2) t
    t'.logged = t.logged ++ complaints holds shows l ∧ (t'.failed = true ↔ t.failed = true ∨ ∃ c ∈ l, ¬ c.1.Holds c.2.1 c.2.2) ∧ t'.w = t.w := by
  induction l generalizing t with
  | nil => simp [complaints]
  | cons c l ih =>
    obtain ⟨r, a, b⟩ := c
    simp only [List.foldl_cons, complaints]
    obtain ⟨i1, i2, i3⟩ := ih (r.expect shows t a b)
    rw [i1, i2, i3]
    obtain ⟨h1, h2⟩ := C157_relations r shows t a b
    by_cases h : r.Holds a b
    · simp [h1 h, (hh r a b).2 h, h]
    · obtain ⟨g1, g2, g3⟩ := h2 h
      have : holds r a b = false := by
        cases e : holds r a b with
        | false => rfl
        | true => exact absurd ((hh r a b).1 e) h
      simp [g1, g2, g3, this, h]

/-- C157: on a totally ordered type `expectLt` complains exactly when `expectGe` does not, `expectGt` exactly when `expectLe` does not, and `expectEq`
exactly when `expectNe` does not. -/
theorem C157_opposites [GoOrd T] [LawfulGoOrd T] (a b : T) :
    (Rel.lt.Holds a b ↔ ¬ Rel.ge.Holds a b) ∧ (Rel.gt.Holds a b ↔ ¬ Rel.le.Holds a b) ∧ (Rel.eq.Holds a b ↔ ¬ Rel.ne.Holds a b) := by
  have asym : ∀ x y : T, GoOrd.lt x y = true → GoOrd.lt y x = false := by
    intro x y h
    cases e : GoOrd.lt y x with
    | false => rfl
    | true => have := LawfulGoOrd.weak.trans x y x h e; rw [LawfulGoOrd.weak.irrefl] at this; cases this
  have h := LawfulGoOrd.eq_iff a b
  refine ⟨?_, ?_, by simp [Rel.Holds]⟩
  · simp only [Rel.Holds, h, not_or]
    constructor
    · intro e; exact ⟨by simp [asym a b e], by simp [e]⟩
    · rintro ⟨e1, e2⟩
      cases e : GoOrd.lt a b with
      | true => rfl
      | false => exact absurd ⟨e, by simpa using e1⟩ e2
  · simp only [Rel.Holds, h, not_or]
    constructor
    · intro e; exact ⟨by simp [asym b a e], by simp [e]⟩
    · rintro ⟨e1, e2⟩
      cases e : GoOrd.lt b a with
      | true => rfl
      | false => exact absurd ⟨by simpa using e1, e⟩ e2

/-- C157: every assertion about a NaN complains except `expectNe`, also if both values are that NaN. -/
theorem C157_nan [GoOrd T] (n : T) (hn : ∀ x : T, GoEq.eq n x = false ∧ GoEq.eq x n = false ∧ GoOrd.lt n x = false ∧ GoOrd.lt x n = false)
    (r : Rel) (x : T) : (r.Holds n x ↔ r = .ne) ∧ (r.Holds x n ↔ r = .ne) := by
  cases r <;> simp [Rel.Holds, hn]

/-- C157: `expectPanic` swallows a panic with a value other than nil and complains about everything else that ends. What `f` did, also to the test, stays done. -/
theorem C157_panic (f : TestRun W → Ended V W) (t : TestRun W) :
    match f t with
    | .panicked (some _) s => expectPanic f t = .returned s
    | .panicked none s => ∃ s', expectPanic f t = .returned s' ∧ Complains "din't panic".toList s s'
    | .returned s => ∃ s', expectPanic f t = .returned s' ∧ Complains "din't panic".toList s s'
    | .exited s => ∃ s', expectPanic f t = .exited s' ∧ Complains "din't panic".toList s s'
    | .hung => expectPanic f t = .hung := by
  have key : ∀ s : TestRun W, Complains "din't panic".toList s (report s "din't panic".toList) := by
    intro s; simp [Complains, report, TestRun.errorf, sprintf]
  unfold expectPanic
  cases f t with
  | returned s => exact ⟨_, rfl, key s⟩
  | exited s => exact ⟨_, rfl, key s⟩
  | hung => rfl
  | panicked v s =>
    cases v with
    | none => exact ⟨_, rfl, key s⟩
    | some v => rfl

/-- C157: no panic gets out of `expectPanic`. -/
theorem C157_contained (f : TestRun W → Ended V W) (t s : TestRun W) (v : Option V) : expectPanic f t ≠ .panicked v s := by
  unfold expectPanic
  cases f t <;> simp

/-- C157: a test that fails inside `f` stays failed. -/
theorem C157_kept (f : TestRun W → Ended V W) (t s s' : TestRun W) (v : Option V) (hf : f t = .returned s ∨ f t = .panicked v s ∨ f t = .exited s)
    (h : expectPanic f t = .returned s' ∨ expectPanic f t = .exited s') : (s.failed = true → s'.failed = true) ∧ s.logged <+: s'.logged ∧ s'.w = s.w := by
  have key : ∀ v : Option V, (s.failed = true → (expectPanicDeferred s v).failed = true) ∧ s.logged <+: (expectPanicDeferred s v).logged
      ∧ (expectPanicDeferred s v).w = s.w := by
    intro v
    cases v <;> simp [expectPanicDeferred, report, TestRun.errorf]
  unfold expectPanic at h
  rcases hf with e | e | e <;> simp only [e] at h <;> rcases h with h | h <;> cases h <;> exact key _

/-! ## Cases -/

section Cases

/-- A test that has not done anything. -/
def fresh (w : W) : TestRun W := { logged := [], failed := false, w := w }

/-- Numbers in decimal. -/
def showInt (z : Int) : List Char := (toString z).toList

-- `expectEq(t, 1, 2); expectLt(t, 1, 2); expectLe(t, 3, 2)`
example : (([(.eq, 1, 2), (.lt, 1, 2), (.le, 3, 2)] : List (Rel × Int × Int)).foldl (fun t c => c.1.expect showInt t c.2.1 c.2.2) (fresh ()))
    = { logged := [some "Wrong: 1 == 2\n".toList, some "Wrong: 3 <= 2\n".toList], failed := true, w := () } := by decide +kernel

-- values that look like formats are shown as they are
example : (expectEq (W := Unit) String.toList (fresh ()) "%v" "%d").logged = [some "Wrong: %v == %d\n".toList] := by decide +kernel

-- a NaN
example : Rel.ne.Holds NanInt.nan NanInt.nan ∧ ¬ Rel.eq.Holds NanInt.nan NanInt.nan ∧ ¬ Rel.ge.Holds NanInt.nan (NanInt.num 1) := by
  simp [Rel.Holds, GoEq.eq, GoOrd.lt]

example : ∀ x : NanInt, GoEq.eq NanInt.nan x = false ∧ GoEq.eq x NanInt.nan = false ∧ GoOrd.lt NanInt.nan x = false ∧ GoOrd.lt x NanInt.nan = false := by
  intro x; cases x <;> simp [GoEq.eq, GoOrd.lt]

/-- A call of the code under test in the world `W`; run-time panics have a value. -/
def underTest {α : Type} (x : GoM W α) (t : TestRun W) : Ended Unit W :=
  match x t.w with
  | .ok _ w => .returned { t with w := w }
  | .panic w => .panicked (some ()) { t with w := w }
  | .diverge => .hung

/-- A call of `x` in `expectPanic` passes exactly if `x` panics. -/
theorem expectPanic_underTest {α : Type} (x : GoM W α) (t : TestRun W) (w : W) (h : x t.w = .panic w) :
    expectPanic (underTest x) t = .returned { t with w := w } := by simp [expectPanic, underTest, h, expectPanicDeferred]

-- `expectPanic(t, func() { s.Pop() })` for an empty stack
example (m : Mem Int) : expectPanic (underTest (Stk.pop (T := Int))) (fresh ⟨m, .empty⟩) = .returned (fresh ⟨m, .empty⟩) :=
  expectPanic_underTest _ _ _ rfl

-- `expectPanic(t, func() {})` complains; a call of `panic(nil)` too; `t.FailNow()` in `f` complains and still leaves the test
example : expectPanic (V := Unit) .returned (fresh 7) = .returned { logged := [some "Wrong: din't panic\n".toList], failed := true, w := 7 } := by decide +kernel
example : expectPanic (V := Unit) (.panicked none) (fresh 7) = .returned { logged := [some "Wrong: din't panic\n".toList], failed := true, w := 7 } := by
  decide +kernel
example : expectPanic (V := Unit) .exited (fresh 7) = .exited { logged := [some "Wrong: din't panic\n".toList], failed := true, w := 7 } := by decide +kernel
example : expectPanic (.panicked (some ())) (fresh 7) = .returned (fresh 7) := by decide +kernel

end Cases
end Stl4go
