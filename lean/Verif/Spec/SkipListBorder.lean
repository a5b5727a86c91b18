import Verif.Spec.SkipListAny
/-!
# Where a search ends in a skip list whose keys are in any order

The keys may have come out of order because the comparison obeys no law, or because it, or what it looks at, changes between calls.
-/
namespace Stl4go
variable {K V : Type}

/-- For the search for `k`, `a` is too small: the compare function returns a negative number; with operators, neither `a == k` nor `k < a`. -/
def SLImpl.below (impl : SLImpl K) (a k : K) : Bool :=
  match impl with
  | .ordered _ => !(GoEq.eq a k) && !(GoOrd.lt k a)
  | .func keyCmp => decide (keyCmp a k < 0)

/-- For the search for `k`, `a` is too large: the compare function returns a positive number; with operators, `k < a` and not `a == k`. -/
def SLImpl.above (impl : SLImpl K) (a k : K) : Bool :=
  match impl with
  | .ordered _ => !(GoEq.eq a k) && GoOrd.lt k a
  | .func keyCmp => decide (keyCmp a k > 0)

/-- Calls of which each is made with a comparison of its own. -/
def SL.runEach : SL K V → List (SLImpl K × Nat × SMOp K V) → Outcome (SL K V × List (SMObs K V))
  | sl, [] => .ret (sl, [])
  | sl, (impl, rnd, op) :: h => do
    let (sl, ob) ← sl.exec impl rnd op
    let (sl, obs) ← sl.runEach h
    return (sl, ob :: obs)

/-- `sl` is the skip list that these calls lead to. -/
def SL.BuiltEach (h : List (SLImpl K × Nat × SMOp K V)) (sl : SL K V) : Prop := ∃ obs, SL.runEach newSkipList h = .ret (sl, obs)

/-- The last entry of `G`, if there is one, has property `P`. -/
def LastIs (P : K → Bool) (G : List (K × V)) : Prop := ∀ A e, G = A ++ [e] → P e.1 = true

/-- The first entry of `R`, if there is one, has property `P`. -/
def FirstIs (P : K → Bool) (R : List (K × V)) : Prop := ∀ e B, R = e :: B → P e.1 = true

/-- What a client sees who iterates from `LowerBound(k)`, and from `UpperBound(k)`. -/
def SL.fromLower (impl : SLImpl K) (sl : SL K V) (k : K) : Outcome (List (K × V)) := sl.lowerBoundIter impl k >>= sl.observeIter
def SL.fromUpper (impl : SLImpl K) (sl : SL K V) (k : K) : Outcome (List (K × V)) := sl.upperBoundIter impl k >>= sl.observeIter

end Stl4go
