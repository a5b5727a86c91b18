import Verif.Model.Basic
/-! # Model of `/repo/lookup.go` -/
namespace Stl4go
variable {T : Type}

/-- `Max`, `/repo/lookup.go:6-11`. -/
def max2 [GoOrd T] (a b : T) : T := if GoOrd.lt b a then a else b
/-- `Min`, `/repo/lookup.go:16-21`. -/
def min2 [GoOrd T] (a b : T) : T := if GoOrd.lt a b then a else b

/-- Loop of `MaxN`, `/repo/lookup.go:31-35`; `rem` is the number of iterations left (`len(a)-i`). -/
def maxNLoop [GoOrd T] (a : List T) : (rem i : Nat) → T → Outcome T
  | 0, _, v => .ret v
  | rem + 1, i, v => do
    let x ← idx a i
    if GoOrd.lt v x then maxNLoop a rem (i + 1) x else maxNLoop a rem (i + 1) v

/-- `MaxN`, `/repo/lookup.go:26-37`. -/
def maxN [GoOrd T] (a : List T) : Outcome T :=
  if a.length = 0 then .panic
  else do
    let v ← idx a 0
    maxNLoop a (a.length - 1) 1 v

/-- Loop of `MinN`, `/repo/lookup.go:47-51`. -/
def minNLoop [GoOrd T] (a : List T) : (rem i : Nat) → T → Outcome T
  | 0, _, v => .ret v
  | rem + 1, i, v => do
    let x ← idx a i
    if GoOrd.lt x v then minNLoop a rem (i + 1) x else minNLoop a rem (i + 1) v

/-- `MinN`, `/repo/lookup.go:42-53`. -/
def minN [GoOrd T] (a : List T) : Outcome T :=
  if a.length = 0 then .panic
  else do
    let v ← idx a 0
    minNLoop a (a.length - 1) 1 v

/-- `MinMax`, `/repo/lookup.go:58-63`. -/
def minMax [GoOrd T] (a b : T) : T × T := if GoOrd.lt a b then (a, b) else (b, a)

/-- Loop of `MinMaxN`, `/repo/lookup.go:74-81`. -/
def minMaxNLoop [GoOrd T] (a : List T) : (rem i : Nat) → T → T → Outcome (T × T)
  | 0, _, mn, mx => .ret (mn, mx)
  | rem + 1, i, mn, mx => do
    let x ← idx a i
    let mn := if GoOrd.lt x mn then x else mn
    let mx := if GoOrd.lt mx x then x else mx
    minMaxNLoop a rem (i + 1) mn mx

/-- `MinMaxN`, `/repo/lookup.go:68-83`. -/
def minMaxN [GoOrd T] (a : List T) : Outcome (T × T) :=
  if a.length = 0 then .panic
  else do
    let mn ← idx a 0
    let mx ← idx a 0
    minMaxNLoop a (a.length - 1) 1 mn mx

/-- Loop of `Find`, `/repo/lookup.go:91-96`; `i` is the range index. -/
def findLoop [GoEq T] (x : T) : List T → Nat → Int × Bool
  | [], _ => (-1, false)
  | v :: a, i => if GoEq.eq v x then ((i : Int), true) else findLoop x a (i + 1)
/-- `Find`, `/repo/lookup.go:90-97`. -/
def find [GoEq T] (a : List T) (x : T) : Int × Bool := findLoop x a 0

/-- Loop of `FindIf`, `/repo/lookup.go:105-110`. -/
def findIfLoop (cond : T → Bool) : List T → Nat → Int × Bool
  | [], _ => (-1, false)
  | v :: a, i => if cond v then ((i : Int), true) else findIfLoop cond a (i + 1)
/-- `FindIf`, `/repo/lookup.go:104-111`. -/
def findIf (a : List T) (cond : T → Bool) : Int × Bool := findIfLoop cond a 0

/-- Loop of `Index`, `/repo/lookup.go:119-124`. -/
def indexLoop [GoEq T] (x : T) : List T → Nat → Int
  | [], _ => -1
  | v :: a, i => if GoEq.eq v x then (i : Int) else indexLoop x a (i + 1)
/-- `Index`, `/repo/lookup.go:118-125`. -/
def index [GoEq T] (a : List T) (x : T) : Int := indexLoop x a 0

/-- `AllOf`, `/repo/lookup.go:130-137`. -/
def allOf : List T → (T → Bool) → Bool
  | [], _ => true
  | v :: a, pred => if !pred v then false else allOf a pred

/-- `AnyOf`, `/repo/lookup.go:142-149`. -/
def anyOf : List T → (T → Bool) → Bool
  | [], _ => false
  | v :: a, pred => if pred v then true else anyOf a pred

/-- `NoneOf`, `/repo/lookup.go:154-156`. -/
def noneOf (a : List T) (pred : T → Bool) : Bool := !anyOf a pred

end Stl4go
