import Verif.Model.Basic
/-! # Element-wise equality and lexicographic order of sequences -/
namespace Stl4go
variable {T : Type}

/-- Specification: element-wise equality. -/
inductive EqSeq [GoEq T] : List T → List T → Prop where
  | nil : EqSeq [] []
  | cons {x y : T} {a b : List T} : GoEq.eq x y = true → EqSeq a b → EqSeq (x :: a) (y :: b)

/-- Specification: `a` comes lexicographically before `b`. -/
inductive LexLt [GoOrd T] : List T → List T → Prop where
  | prefix {y : T} {b : List T} : LexLt [] (y :: b)
  | head {x y : T} {a b : List T} : GoOrd.lt x y = true → LexLt (x :: a) (y :: b)
  | tail {x y : T} {a b : List T} : GoEq.eq x y = true → LexLt a b → LexLt (x :: a) (y :: b)

end Stl4go
