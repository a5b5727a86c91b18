import Verif.Model.SkipListReenter
/-!
# Skip lists whose compare function uses them: what a client can observe
-/
namespace Stl4go
variable {K V τ α : Type}

/-- The operations that only look at the list. -/
def SMOp.Reading : SMOp K V → Prop
  | .find _ | .has _ | .len | .isEmpty | .iterate | .lowerBound _ | .upperBound _ => True
  | .insert _ _ | .remove _ | .clear | .update _ _ => False

/-- Whenever the code answers, the answer has the sign `s`. -/
def CmpCode.Answers (s : Int) : CmpCode K V τ → Prop
  | .answer r _ => r.sign = s
  | .panics _ => True
  | .hangs => True
  | .call _ _ _ next => ∀ ob t, (next ob t).Answers s

/-- All methods that the code calls are in `P`. -/
def CmpCode.Calls (P : SMOp K V → Prop) : CmpCode K V τ → Prop
  | .answer _ _ => True
  | .panics _ => True
  | .hangs => True
  | .call _ _ op next => P op ∧ ∀ ob t, (next ob t).Calls P

/-- The code can panic, with some results of the methods it calls. -/
def CmpCode.CanPanic : CmpCode K V τ → Prop
  | .answer _ _ => False
  | .panics _ => True
  | .hangs => False
  | .call _ _ _ next => ∃ ob t, (next ob t).CanPanic

/-- The code keeps a guard, and neither panics nor hangs: every call of a method is made with the guard lower than it was at the start (`r`), and in
the end the guard is not higher than then. This is asked of the code for calls that return with the guard not higher than before the call. -/
def CmpCode.Guarded (guard : τ → Nat) (r : Nat) : CmpCode K V τ → Prop
  | .answer _ t => guard t ≤ r
  | .panics _ => False
  | .hangs => False
  | .call t _ _ next => guard t < r ∧ ∀ ob t', ob ≠ .panicked → guard t' ≤ guard t → (next ob t').Guarded guard r

/-- The code begins with a call of a method that takes a key. -/
def CmpCode.Recurs : CmpCode K V τ → Prop
  | .call _ _ op _ => op.key?.isSome = true
  | _ => False

/-- A program that makes the operations in turn and recovers from panics; it ends early if an operation hangs. -/
def SLR.run (cmp : CmpR K V τ) : SLS K V τ → List (Nat × SMOp K V) → List (SMObs K V) × SLS K V τ
  | s, [] => ([], s)
  | s, (rnd, op) :: ops =>
    match SLR.exec cmp rnd op s with
    | .ok ob s' => let r := SLR.run cmp s' ops; (ob :: r.1, r.2)
    | .panic s' => let r := SLR.run cmp s' ops; (.panicked :: r.1, r.2)
    | .diverge => ([.hung], s)

end Stl4go
