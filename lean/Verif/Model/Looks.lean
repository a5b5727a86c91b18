import Verif.Model.Lookup
import Verif.Model.Compare
import Verif.Model.Compute
import Verif.Model.Numeric
import Verif.Model.Sort
/-!
# The functions that only look at slices, with a record of what they look at

The state is the list of everything that was looked at so far: element reads of the first and of the second slice, comparisons with their operands (`x > y` is recorded as
`y < x`), calls of a callback. A `range` loop reads the element of each iteration it begins; `v = a[i]` after `if a[i] > v` reads again. Each function is that of
`Model/Lookup.lean`, `Model/Compare.lean`, `Model/Compute.lean`, `Model/Numeric.lean` or `Model/Sort.lean`, with the loops over indices.
-/
namespace Stl4go
variable {T : Type}

/-- Something looked at, as in `/repo/compare.go:12`. -/
inductive Look (T : Type) where
  | a (i : Nat)
  | b (i : Nat)
  | eq (x y : T)
  | lt (x y : T)
  | call (x : T)
deriving DecidableEq, Repr

/-- Record it (`/repo/lookup.go:32`). -/
def GoM.note (e : Look T) : GoM (List (Look T)) Unit := GoM.modify (· ++ [e])

/-- `s[i]` (`/repo/compare.go:12`): panics out of bounds, otherwise recorded as `e`. -/
def readAs (e : Look T) (s : List T) (i : Nat) : GoM (List (Look T)) T :=
  match s[i]? with
  | some x => do GoM.note e; pure x
  | none => GoM.panic

/-- `a[i]` for the first slice (`/repo/compare.go:12`). -/
def readA (a : List T) (i : Nat) : GoM (List (Look T)) T := readAs (.a i) a i
/-- `b[i]` for the second slice (`/repo/compare.go:32`). -/
def readB (b : List T) (i : Nat) : GoM (List (Look T)) T := readAs (.b i) b i
/-- `x == y` (`/repo/lookup.go:92`). -/
def testEq [GoEq T] (x y : T) : GoM (List (Look T)) Bool := do GoM.note (.eq x y); pure (GoEq.eq x y)
/-- `x < y` (`/repo/lookup.go:48`). -/
def testLt [GoOrd T] (x y : T) : GoM (List (Look T)) Bool := do GoM.note (.lt x y); pure (GoOrd.lt x y)
/-- `cond(x)` (`/repo/lookup.go:106`). -/
def testCall (cond : T → Bool) (x : T) : GoM (List (Look T)) Bool := do GoM.note (.call x); pure (cond x)

/-- Loop of `MaxN`, `/repo/lookup.go:31-35`. -/
def maxNLoopLooks [GoOrd T] (a : List T) : (rem i : Nat) → T → GoM (List (Look T)) T
  | 0, _, v => pure v
  | rem + 1, i, v => do
    let x ← readA a i
    if ← testLt v x then do
      let x ← readA a i
      maxNLoopLooks a rem (i + 1) x
    else maxNLoopLooks a rem (i + 1) v

/-- `MaxN`, `/repo/lookup.go:26-37`. -/
def maxNLooks [GoOrd T] (a : List T) : GoM (List (Look T)) T :=
  if a.length = 0 then GoM.panic
  else do
    let v ← readA a 0
    maxNLoopLooks a (a.length - 1) 1 v

/-- Loop of `MinN`, `/repo/lookup.go:47-51`. -/
def minNLoopLooks [GoOrd T] (a : List T) : (rem i : Nat) → T → GoM (List (Look T)) T
  | 0, _, v => pure v
  | rem + 1, i, v => do
    let x ← readA a i
    if ← testLt x v then do
      let x ← readA a i
      minNLoopLooks a rem (i + 1) x
    else minNLoopLooks a rem (i + 1) v

/-- `MinN`, `/repo/lookup.go:42-53`. -/
def minNLooks [GoOrd T] (a : List T) : GoM (List (Look T)) T :=
  if a.length = 0 then GoM.panic
  else do
    let v ← readA a 0
    minNLoopLooks a (a.length - 1) 1 v

/-- `if a[i] < min { min = a[i] }`, `/repo/lookup.go:75-77`. -/
def lowerTo [GoOrd T] (a : List T) (i : Nat) (mn : T) : GoM (List (Look T)) T := do
  let x ← readA a i
  if ← testLt x mn then readA a i else pure mn

/-- `if a[i] > max { max = a[i] }`, `/repo/lookup.go:78-80`. -/
def raiseTo [GoOrd T] (a : List T) (i : Nat) (mx : T) : GoM (List (Look T)) T := do
  let x ← readA a i
  if ← testLt mx x then readA a i else pure mx

/-- Loop of `MinMaxN`, `/repo/lookup.go:74-81`. -/
def minMaxNLoopLooks [GoOrd T] (a : List T) : (rem i : Nat) → T → T → GoM (List (Look T)) (T × T)
  | 0, _, mn, mx => pure (mn, mx)
  | rem + 1, i, mn, mx => do
    let mn ← lowerTo a i mn
    let mx ← raiseTo a i mx
    minMaxNLoopLooks a rem (i + 1) mn mx

/-- `MinMaxN`, `/repo/lookup.go:68-83`. -/
def minMaxNLooks [GoOrd T] (a : List T) : GoM (List (Look T)) (T × T) :=
  if a.length = 0 then GoM.panic
  else do
    let mn ← readA a 0
    let mx ← readA a 0
    minMaxNLoopLooks a (a.length - 1) 1 mn mx

/-- Loop of `Find`, `/repo/lookup.go:91-96`. -/
def findLoopLooks [GoEq T] (x : T) (a : List T) : (rem i : Nat) → GoM (List (Look T)) (Int × Bool)
  | 0, _ => pure (-1, false)
  | rem + 1, i => do
    let v ← readA a i
    if ← testEq v x then pure ((i : Int), true) else findLoopLooks x a rem (i + 1)
/-- `Find`, `/repo/lookup.go:90-97`. -/
def findLooks [GoEq T] (a : List T) (x : T) : GoM (List (Look T)) (Int × Bool) := findLoopLooks x a a.length 0

/-- Loop of `FindIf`, `/repo/lookup.go:105-110`. -/
def findIfLoopLooks (cond : T → Bool) (a : List T) : (rem i : Nat) → GoM (List (Look T)) (Int × Bool)
  | 0, _ => pure (-1, false)
  | rem + 1, i => do
    let v ← readA a i
    if ← testCall cond v then pure ((i : Int), true) else findIfLoopLooks cond a rem (i + 1)
/-- `FindIf`, `/repo/lookup.go:104-111`. -/
def findIfLooks (a : List T) (cond : T → Bool) : GoM (List (Look T)) (Int × Bool) := findIfLoopLooks cond a a.length 0

/-- Loop of `Index`, `/repo/lookup.go:119-124`. -/
def indexLoopLooks [GoEq T] (x : T) (a : List T) : (rem i : Nat) → GoM (List (Look T)) Int
  | 0, _ => pure (-1)
  | rem + 1, i => do
    let v ← readA a i
    if ← testEq v x then pure (i : Int) else indexLoopLooks x a rem (i + 1)
/-- `Index`, `/repo/lookup.go:118-125`. -/
def indexLooks [GoEq T] (a : List T) (x : T) : GoM (List (Look T)) Int := indexLoopLooks x a a.length 0

/-- Loop of `AllOf`, `/repo/lookup.go:131-136`. -/
def allOfLoopLooks (pred : T → Bool) (a : List T) : (rem i : Nat) → GoM (List (Look T)) Bool
  | 0, _ => pure true
  | rem + 1, i => do
    let v ← readA a i
    if !(← testCall pred v) then pure false else allOfLoopLooks pred a rem (i + 1)
/-- `AllOf`, `/repo/lookup.go:130-137`. -/
def allOfLooks (a : List T) (pred : T → Bool) : GoM (List (Look T)) Bool := allOfLoopLooks pred a a.length 0

/-- Loop of `AnyOf`, `/repo/lookup.go:143-148`. -/
def anyOfLoopLooks (pred : T → Bool) (a : List T) : (rem i : Nat) → GoM (List (Look T)) Bool
  | 0, _ => pure false
  | rem + 1, i => do
    let v ← readA a i
    if ← testCall pred v then pure true else anyOfLoopLooks pred a rem (i + 1)
/-- `AnyOf`, `/repo/lookup.go:142-149`. -/
def anyOfLooks (a : List T) (pred : T → Bool) : GoM (List (Look T)) Bool := anyOfLoopLooks pred a a.length 0

/-- `NoneOf`, `/repo/lookup.go:154-156`. -/
def noneOfLooks (a : List T) (pred : T → Bool) : GoM (List (Look T)) Bool := do
  let b ← anyOfLooks a pred
  pure (!b)

/-- Loop of `Equal`, `/repo/compare.go:11-16`. -/
def equalLoopLooks [GoEq T] (a b : List T) : (rem i : Nat) → GoM (List (Look T)) Bool
  | 0, _ => pure true
  | rem + 1, i => do
    let x ← readA a i
    let y ← readB b i
    if !(← testEq x y) then pure false else equalLoopLooks a b rem (i + 1)

/-- `Equal`, `/repo/compare.go:7-17`. -/
def equalLooks [GoEq T] (a b : List T) : GoM (List (Look T)) Bool :=
  if a.length ≠ b.length then pure false
  else equalLoopLooks a b a.length 0

/-- Loop and tail of `Compare`, `/repo/compare.go:28-43`. -/
def compareLoopLooks [GoOrd T] (a b : List T) : (rem i : Nat) → GoM (List (Look T)) Int
  | 0, _ => pure (if a.length < b.length then -1 else 0)
  | rem + 1, i => do
    let v1 ← readA a i
    if i ≥ b.length then pure 1
    else do
      let v2 ← readB b i
      if ← testLt v1 v2 then pure (-1)
      else do
        if ← testLt v2 v1 then pure 1
        else compareLoopLooks a b rem (i + 1)

/-- `Compare`, `/repo/compare.go:26-44`. -/
def compareLooks [GoOrd T] (a b : List T) : GoM (List (Look T)) Int := compareLoopLooks a b a.length 0

/-- Loop of `Count`, `/repo/compute.go:61-65`. -/
def countLoopLooks [GoEq T] (x : T) (a : List T) : (rem i c : Nat) → GoM (List (Look T)) Nat
  | 0, _, c => pure c
  | rem + 1, i, c => do
    let v ← readA a i
    if ← testEq v x then countLoopLooks x a rem (i + 1) (c + 1) else countLoopLooks x a rem (i + 1) c

/-- `Count`, `/repo/compute.go:59-67`. -/
def countLooks [GoEq T] (a : List T) (x : T) : GoM (List (Look T)) Nat := countLoopLooks x a a.length 0 0

/-- Loop of `CountIf`, `/repo/compute.go:74-78`. -/
def countIfLoopLooks (pred : T → Bool) (a : List T) : (rem i c : Nat) → GoM (List (Look T)) Nat
  | 0, _, c => pure c
  | rem + 1, i, c => do
    let v ← readA a i
    if ← testCall pred v then countIfLoopLooks pred a rem (i + 1) (c + 1) else countIfLoopLooks pred a rem (i + 1) c

/-- `CountIf`, `/repo/compute.go:72-80`. -/
def countIfLooks (a : List T) (pred : T → Bool) : GoM (List (Look T)) Nat := countIfLoopLooks pred a a.length 0 0

/-- Loops of `SumAs`, `/repo/compute.go:10-12`, `/repo/compute.go:16-18`, `/repo/compute.go:22-24`. -/
def sumLoopLooks (pf : Platform) (acc elem : NKind) (a : List elem.Val) : (rem i : Nat) → acc.Val → GoM (List (Look elem.Val)) acc.Val
  | 0, _, total => pure total
  | rem + 1, i, total => do
    let v ← readA a i
    sumLoopLooks pf acc elem a rem (i + 1) (acc.add pf total (elem.conv pf acc v))

/-- `SumAs`, `/repo/compute.go:6-27`. -/
def sumAsLooks (pf : Platform) (R T : NType) (a : List T.kind.Val) : GoM (List (Look T.kind.Val)) R.kind.Val := do
  let total ← sumLoopLooks pf (sumAcc T) T.kind a a.length 0 (sumAcc T).zero
  pure ((sumAcc T).conv pf R.kind total)

/-- `Sum`, `/repo/compute.go:32-34`. -/
def sumLooks (pf : Platform) (T : NType) (a : List T.kind.Val) : GoM (List (Look T.kind.Val)) T.kind.Val := sumAsLooks pf T T a

/-- A division, which may panic (`/repo/compute.go:38`). -/
def GoM.ofOutcome {σ α : Type} : Outcome α → GoM σ α
  | .ret a => pure a
  | .panic => GoM.panic
  | .diverge => GoM.diverge

/-- `AverageAs`, `/repo/compute.go:37-39`. -/
def averageAsLooks (pf : Platform) (R T : NType) (a : List T.kind.Val) : GoM (List (Look T.kind.Val)) R.kind.Val := do
  let s ← sumAsLooks pf R T a
  GoM.ofOutcome (R.kind.div pf s ((NKind.int .int).conv pf R.kind (a.length : Int)))

/-- `Average`, `/repo/compute.go:42-54`. -/
def averageLooks (pf : Platform) (T : NType) (a : List T.kind.Val) : GoM (List (Look T.kind.Val)) T.kind.Val :=
  match averageVia T with
  | some R => do
    let r ← averageAsLooks pf R T a
    pure (R.kind.conv pf T.kind r)
  | none => averageAsLooks pf T T a

/-- Loop of `IsSorted`, `/repo/sort.go:15-20`; the range is `a[1:]`. -/
def isSortedLoopLooks [GoOrd T] (a : List T) : (rem i : Nat) → (prev : T) → GoM (List (Look T)) Bool
  | 0, _, _ => pure true
  | rem + 1, i, prev => do
    let v ← readA a i
    if ← testLt v prev then pure false else isSortedLoopLooks a rem (i + 1) v

/-- `IsSorted`, `/repo/sort.go:10-22`. -/
def isSortedLooks [GoOrd T] (a : List T) : GoM (List (Look T)) Bool :=
  if a.length = 0 then pure true
  else do
    let prev ← readA a 0
    isSortedLoopLooks a (a.length - 1) 1 prev

/-- Loop of `IsDescSorted`, `/repo/sort.go:32-37`. -/
def isDescSortedLoopLooks [GoOrd T] (a : List T) : (rem i : Nat) → (prev : T) → GoM (List (Look T)) Bool
  | 0, _, _ => pure true
  | rem + 1, i, prev => do
    let v ← readA a i
    if ← testLt prev v then pure false else isDescSortedLoopLooks a rem (i + 1) v

/-- `IsDescSorted`, `/repo/sort.go:27-39`. -/
def isDescSortedLooks [GoOrd T] (a : List T) : GoM (List (Look T)) Bool :=
  if a.length = 0 then pure true
  else do
    let prev ← readA a 0
    isDescSortedLoopLooks a (a.length - 1) 1 prev

end Stl4go
