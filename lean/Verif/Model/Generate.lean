import Verif.Model.Numeric
/-! # Model of `/repo/generate.go` -/
namespace Stl4go
variable {T σ : Type}

/-- `a - b` for a numeric type, `/repo/generate.go:8`. -/
def NKind.sub (pf : Platform) : (k : NKind) → k.Val → k.Val → k.Val
  | .int g, (a : Int), b => g.wrap pf.w (a - b)
  | .flt g, a, b => g.sub_ a b

/-- `a < b` for a numeric type, `/repo/generate.go:9`. -/
def NKind.lt : (k : NKind) → k.Val → k.Val → Bool
  | .int _, (a : Int), b => decide (a < b)
  | .flt _, a, b => Flt.lt a b

/-- The constant 1 of a type, `/repo/generate.go:9`. -/
def NKind.one : (k : NKind) → k.Val
  | .int _ => (1 : Int)
  | .flt _ => Flt.fin Flt.one

/-- The zero value, which fills the unused part of an array (`/repo/generate.go:8`). -/
instance (k : NKind) : GoZero k.Val := ⟨k.zero⟩

/-- Loop of `Range`, `/repo/generate.go:9-11`. -/
def rangeLoop (pf : Platform) (grow : Nat → Nat → Nat) (k : NKind) (last : k.Val) : (fuel : Nat) → k.Val → Sl → GoM (Mem k.Val) Sl
  | 0, _, _ => GoM.diverge
  | fuel + 1, v, a =>
    if k.lt v last = true then do
      let a ← a.append grow [v]
      rangeLoop pf grow k last fuel (k.add pf v k.one) a
    else pure a

/-- `Range`, `/repo/generate.go:7-13`, for a predeclared or defined type with the underlying type `k`. -/
def range (pf : Platform) (grow : Nat → Nat → Nat) (fuel : Nat) (k : NKind) (first last : k.Val) : GoM (Mem k.Val) Sl := do
  let a ← Sl.make 0 (k.conv pf (.int .int) (k.sub pf last first))
  rangeLoop pf grow k last fuel first a

/-- Loop of `Generate`, `/repo/generate.go:19-21`; the generator has a state `σ`. -/
def generateLoop (a : Sl) (gen : σ → σ × T) : (n i : Nat) → σ → GoM (Mem T) σ
  | 0, _, t => pure t
  | n + 1, i, t => do
    a.put i (gen t).2
    generateLoop a gen n (i + 1) (gen t).1

/-- `Generate`, `/repo/generate.go:18-22`. -/
def generate (a : Sl) (gen : σ → σ × T) (t : σ) : GoM (Mem T) σ := generateLoop a gen a.len 0 t

end Stl4go
