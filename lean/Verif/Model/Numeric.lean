import Verif.Model.Slice
/-!
# Model of the numeric types (`/repo/types.go`) and of `SumAs`, `Sum`, `AverageAs`, `Average` (`/repo/compute.go`)

Integers wrap around at the width of their type. `int`, `uint` and `uintptr` have the `w` bits of the platform.

Floats are IEEE 754 with round-to-nearest-even. Every finite float32 and float64 is a whole number of units of 2^-1074, so a finite float
is an integer here and one rounding function covers normal and subnormal numbers. The sign of zero is not kept: it only matters as a
divisor, and the only divisor in `/repo` is a converted length.

A conversion from a float to an integer type that cannot hold it is implementation-defined in Go: `oob` is any choice of results.
No expression here has a product, so the compiler cannot fuse operations and each rounds once.
-/
namespace Stl4go

/-- The predeclared integer types (`/repo/types.go:6-15`). -/
inductive GoInt where
  | int8 | int16 | int32 | int64 | int
  | uint8 | uint16 | uint32 | uint64 | uint | uintptr
deriving DecidableEq, Repr

/-- Types of the constraint `Signed`, `/repo/types.go:6-8`. -/
def GoInt.signed : GoInt → Bool
  | .int8 | .int16 | .int32 | .int64 | .int => true
  | _ => false

/-- Width of the types of `/repo/types.go:6-15` on a platform with `w`-bit words. -/
def GoInt.bits (w : Nat) : GoInt → Nat
  | .int8 | .uint8 => 8
  | .int16 | .uint16 => 16
  | .int32 | .uint32 => 32
  | .int64 | .uint64 => 64
  | .int | .uint | .uintptr => w

/-- The integer of type `g` (`/repo/types.go:20-22`) congruent to `z`: the result of an operation or conversion whose exact result is `z`. -/
def GoInt.wrap (w : Nat) (g : GoInt) (z : Int) : Int :=
  if g.signed then Int.bmod z (2 ^ g.bits w) else z % 2 ^ g.bits w

/-- Smallest value of the type (`/repo/types.go:20-22`). -/
def GoInt.min (w : Nat) (g : GoInt) : Int := if g.signed then - 2 ^ (g.bits w - 1) else 0

/-- Largest value of the type (`/repo/types.go:20-22`). -/
def GoInt.max (w : Nat) (g : GoInt) : Int := if g.signed then 2 ^ (g.bits w - 1) - 1 else 2 ^ g.bits w - 1

/-! ## Floats -/

/-- The predeclared float types (`/repo/types.go:27-29`). -/
inductive GoFloat where
  | float32 | float64
deriving DecidableEq, Repr

/-- A float (`/repo/types.go:27-29`): a finite one is a number of units of 2^-1074. -/
inductive Flt where
  | fin (z : Int)
  | inf (neg : Bool)
  | nan
deriving DecidableEq, Repr

/-- A unit is 2^-1074, the smallest positive float64 (a property of the types of `/repo/types.go:27-29`). -/
def Flt.exp : Nat := 1074

/-- One, in units (the 1 added by `v++`, `/repo/generate.go:9`). -/
def Flt.one : Nat := 2 ^ Flt.exp

/-- The integer nearest to `a / q`, to the even one if two are (the rounding of a division, as in `/repo/compute.go:38`). -/
def roundDiv (a q : Nat) : Nat :=
  if 2 * (a % q) < q then a / q
  else if q < 2 * (a % q) then a / q + 1
  else if a / q % 2 = 0 then a / q else a / q + 1

/-- The spacing, as a power of two of units, of numbers with `p` significant bits around `n`, at least `s` (a property of the types of
`/repo/types.go:27-29`). -/
def ulpExp (p s n : Nat) : Nat := Nat.max (Nat.log2 n + 1 - p) s

/-- `a / b` units rounded to `p` significant bits and a multiple of 2^s units (as in `/repo/compute.go:38`). -/
def roundFrac (p s a b : Nat) : Nat := roundDiv a (b * 2 ^ ulpExp p s (a / b)) * 2 ^ ulpExp p s (a / b)

/-- Significant bits of the types of `/repo/types.go:27-29`. -/
def GoFloat.prec : GoFloat → Nat
  | .float32 => 24
  | .float64 => 53

/-- Spacing of the subnormal numbers of the types of `/repo/types.go:27-29`: 2^-149 and 2^-1074, in units. -/
def GoFloat.sub : GoFloat → Nat
  | .float32 => Flt.exp - 149
  | .float64 => 0

/-- Finite numbers of the types of `/repo/types.go:27-29` are below this: 2^128 and 2^1024, in units. -/
def GoFloat.limit : GoFloat → Nat
  | .float32 => 2 ^ (Flt.exp + 128)
  | .float64 => 2 ^ (Flt.exp + 1024)

/-- The float that the exact result `± a / b` units is rounded to (an arithmetic operation as in `/repo/compute.go:23`). -/
def GoFloat.round (g : GoFloat) (neg : Bool) (a b : Nat) : Flt :=
  if roundFrac g.prec g.sub a b < g.limit then .fin (if neg then - (roundFrac g.prec g.sub a b : Int) else roundFrac g.prec g.sub a b)
  else .inf neg

/-- The same for an exact result that is a whole number of units (sums and conversions, `/repo/compute.go:23`). -/
def GoFloat.ofUnits (g : GoFloat) (z : Int) : Flt := g.round (decide (z < 0)) z.natAbs 1

/-- `a + b`, `/repo/compute.go:23`. -/
def GoFloat.add (g : GoFloat) : Flt → Flt → Flt
  | .fin a, .fin b => g.ofUnits (a + b)
  | .inf s, .fin _ => .inf s
  | .fin _, .inf s => .inf s
  | .inf s, .inf t => if s = t then .inf s else .nan
  | .nan, _ => .nan
  | _, .nan => .nan

/-- `a - b`, `/repo/generate.go:8`. -/
def GoFloat.sub_ (g : GoFloat) : Flt → Flt → Flt
  | a, .fin b => g.add a (.fin (-b))
  | a, .inf s => g.add a (.inf (!s))
  | _, .nan => .nan

/-- `a / b`, `/repo/compute.go:38`, where `b` is not a negative zero. -/
def GoFloat.div (g : GoFloat) : Flt → Flt → Flt
  | .fin a, .fin b =>
    if b = 0 then (if a = 0 then .nan else .inf (decide (a < 0)))
    else g.round (decide (a < 0) != decide (b < 0)) (a.natAbs * Flt.one) b.natAbs
  | .inf s, .fin b => .inf (s != decide (b < 0))
  | .fin _, .inf _ => .fin 0
  | .inf _, .inf _ => .nan
  | .nan, _ => .nan
  | _, .nan => .nan

/-- `a < b`, `/repo/generate.go:9`. -/
def Flt.lt : Flt → Flt → Bool
  | .fin a, .fin b => decide (a < b)
  | .inf s, .fin _ => s
  | .fin _, .inf s => !s
  | .inf s, .inf t => s && !t
  | .nan, _ => false
  | _, .nan => false

/-! ## Types and conversions -/

/-- The predeclared numeric types: the constraint `Numeric`, `/repo/types.go:40-42`. -/
inductive NKind where
  | int (g : GoInt)
  | flt (g : GoFloat)
deriving DecidableEq, Repr

/-- A type argument for `Numeric` (`/repo/types.go:40-42`): a predeclared type, or a defined type with that underlying type. -/
structure NType where
  kind : NKind
  defined : Bool
deriving DecidableEq, Repr

/-- A predeclared integer type (`/repo/types.go:20-22`). -/
@[reducible] def NType.int (g : GoInt) : NType := { kind := .int g, defined := false }

/-- A predeclared float type (`/repo/types.go:27-29`). -/
@[reducible] def NType.flt (g : GoFloat) : NType := { kind := .flt g, defined := false }

/-- The values of a type of `/repo/types.go:40-42`. -/
@[reducible] def NKind.Val : NKind → Type
  | .int _ => Int
  | .flt _ => Flt

/-- The platform (any use of `/repo/types.go:40-42`): word size and the results of out-of-range float to integer conversions. -/
structure Platform where
  w : Nat
  oob : GoInt → Flt → Int

/-- The conversion `R(v)`, `/repo/compute.go:13`. -/
def NKind.conv (pf : Platform) : (src dst : NKind) → src.Val → dst.Val
  | .int _, .int g, z => g.wrap pf.w z
  | .int _, .flt g, (z : Int) => g.ofUnits (z * Flt.one)
  | .flt _, .int g, .fin z => if g.min pf.w ≤ z.tdiv Flt.one ∧ z.tdiv Flt.one ≤ g.max pf.w then z.tdiv Flt.one else pf.oob g (.fin z)
  | .flt _, .int g, x => pf.oob g x
  | .flt _, .flt g, .fin z => g.ofUnits z
  | .flt _, .flt _, .inf s => Flt.inf s
  | .flt _, .flt _, .nan => Flt.nan

/-- `a + b`, `/repo/compute.go:11`. -/
def NKind.add (pf : Platform) : (k : NKind) → k.Val → k.Val → k.Val
  | .int g, (a : Int), b => g.wrap pf.w (a + b)
  | .flt g, a, b => g.add a b

/-- `a / b`, `/repo/compute.go:38`. -/
def NKind.div (pf : Platform) : (k : NKind) → k.Val → k.Val → Outcome k.Val
  | .int g, (a : Int), (b : Int) => if b = 0 then .panic else .ret (g.wrap pf.w (a.tdiv b))
  | .flt g, a, b => .ret (g.div a b)

/-! ## Summation -/

/-- The constant 0 of a type, `/repo/compute.go:9`. -/
def NKind.zero : (k : NKind) → k.Val
  | .int _ => (0 : Int)
  | .flt _ => Flt.fin 0

/-- Loops of `SumAs`, `/repo/compute.go:10-12`, `/repo/compute.go:16-18`, `/repo/compute.go:22-24`; `acc` is the type of `total`. -/
def sumLoop (pf : Platform) (acc elem : NKind) : List elem.Val → acc.Val → acc.Val
  | [], total => total
  | v :: a, total => sumLoop pf acc elem a (acc.add pf total (elem.conv pf acc v))

/-- The type of `total` chosen by the type switch of `SumAs`, `/repo/compute.go:7-26`: a defined type matches no case. -/
def sumAcc (T : NType) : NKind :=
  match T.defined, T.kind with
  | false, .int .int8 | false, .int .int16 | false, .int .int32 | false, .int .int | false, .int .int64 => .int .int64
  | false, .int .uint8 | false, .int .uint16 | false, .int .uint32 | false, .int .uint | false, .int .uint64 | false, .int .uintptr => .int .uint64
  | _, _ => .flt .float64

/-- `SumAs`, `/repo/compute.go:6-27`. -/
def sumAs (pf : Platform) (R T : NType) (a : List T.kind.Val) : R.kind.Val :=
  (sumAcc T).conv pf R.kind (sumLoop pf (sumAcc T) T.kind a (sumAcc T).zero)

/-- `Sum`, `/repo/compute.go:32-34`. -/
def sum (pf : Platform) (T : NType) (a : List T.kind.Val) : T.kind.Val := sumAs pf T T a

/-- `AverageAs`, `/repo/compute.go:37-39`. -/
def averageAs (pf : Platform) (R T : NType) (a : List T.kind.Val) : Outcome R.kind.Val :=
  R.kind.div pf (sumAs pf R T a) ((NKind.int .int).conv pf R.kind (a.length : Int))

/-- The type argument of `AverageAs` chosen by the type switch of `Average`, `/repo/compute.go:44-51`; none if no case matches. -/
def averageVia (T : NType) : Option NType :=
  match T.defined, T.kind with
  | false, .int .int | false, .int .int8 | false, .int .uint8 | false, .int .int16 | false, .int .uint16 | false, .int .int32
  | false, .int .uint32 => some (.int .int64)
  | false, .int .uint64 => some (.int .uint64)
  | false, .flt .float32 | false, .flt .float64 => some (.flt .float64)
  | _, _ => none

/-- `Average`, `/repo/compute.go:42-54`. -/
def average (pf : Platform) (T : NType) (a : List T.kind.Val) : Outcome T.kind.Val :=
  match averageVia T with
  | some R => do
    let r ← averageAs pf R T a
    return R.kind.conv pf T.kind r
  | none => averageAs pf T T a

end Stl4go
