import Verif.Spec.BuiltinSet
/-!
# Expressions of set algebra

What a client writes as `a.Union(b).Difference(c)` and the like, nested in any way.
-/
namespace Stl4go
variable {K : Type}

/-- An expression made of set variables and the methods `Union`, `Intersection` and `Difference`. -/
inductive SetExpr where
  | var (r : MRef)
  | union (a b : SetExpr)
  | inter (a b : SetExpr)
  | diff (a b : SetExpr)

/-- The calls that Go makes to evaluate it: receiver first, then the argument, then the method. -/
def SetExpr.eval [GoEq K] (rt : MapRt K) : SetExpr → GoM (MWorld K) MRef
  | .var r => pure r
  | .union a b => do
    let s ← a.eval rt
    let o ← b.eval rt
    bsUnion rt s o
  | .inter a b => do
    let s ← a.eval rt
    let o ← b.eval rt
    bsIntersection rt s o
  | .diff a b => do
    let s ← a.eval rt
    let o ← b.eval rt
    bsDifference rt s o

/-- What it means for one element: `v r` says whether the element is in the set `r`. -/
def SetExpr.holds (v : MRef → Bool) : SetExpr → Bool
  | .var r => v r
  | .union a b => a.holds v || b.holds v
  | .inter a b => a.holds v && b.holds v
  | .diff a b => a.holds v && !b.holds v

/-- The variables hold nil or existing sets. -/
def SetExpr.Ok (n : Nat) : SetExpr → Prop
  | .var r => RefOk n r
  | .union a b | .inter a b | .diff a b => a.Ok n ∧ b.Ok n

end Stl4go
