import Verif.Model.SliceCost
import Verif.Model.Generate
/-! # The functions of `/repo/generate.go`, with element accesses counted as in `Model/SliceCost.lean` -/
namespace Stl4go
variable {T σ : Type}

/-- Loop of `Range`, `/repo/generate.go:9-11`. -/
def rangeLoopAcc (pf : Platform) (grow : Nat → Nat → Nat) (k : NKind) (last : k.Val) : (fuel : Nat) → k.Val → Sl → GoM (Mem k.Val × Nat) Sl
  | 0, _, _ => GoM.diverge
  | fuel + 1, v, a =>
    if k.lt v last = true then do
      let a ← a.appendAcc grow [v]
      rangeLoopAcc pf grow k last fuel (k.add pf v k.one) a
    else pure a

/-- `Range`, `/repo/generate.go:7-13`. -/
def rangeAcc (pf : Platform) (grow : Nat → Nat → Nat) (fuel : Nat) (k : NKind) (first last : k.Val) : GoM (Mem k.Val × Nat) Sl := do
  let a ← Sl.makeAcc 0 (k.conv pf (.int .int) (k.sub pf last first))
  rangeLoopAcc pf grow k last fuel first a

/-- Loop of `Generate`, `/repo/generate.go:19-21`. -/
def generateLoopAcc (a : Sl) (gen : σ → σ × T) : (n i : Nat) → σ → GoM (Mem T × Nat) σ
  | 0, _, t => pure t
  | n + 1, i, t => do
    a.putAcc i (gen t).2
    generateLoopAcc a gen n (i + 1) (gen t).1

/-- `Generate`, `/repo/generate.go:18-22`. -/
def generateAcc (a : Sl) (gen : σ → σ × T) (t : σ) : GoM (Mem T × Nat) σ := generateLoopAcc a gen a.len 0 t

end Stl4go
