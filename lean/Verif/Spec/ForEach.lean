import Verif.Model.Basic
/-! # Specification of the ForEach family: a (stateful) callback applied to a list of entries in order -/
namespace Stl4go
variable {K V σ : Type}

/-- `ForEach`: the callback sees every entry, once, in order. -/
def visitAll (f : σ → K → V → σ) : σ → List (K × V) → σ
  | t, [] => t
  | t, e :: m => visitAll f (f t e.1 e.2) m

/-- `ForEachIf`: the callback sees the entries in order up to and including the first for which it returns false. -/
def visitWhile (f : σ → K → V → σ × Bool) : σ → List (K × V) → σ
  | t, [] => t
  | t, e :: m => if (f t e.1 e.2).2 then visitWhile f (f t e.1 e.2).1 m else (f t e.1 e.2).1

/-- `ForEachMutable`: as `visitAll`, the callback replaces the value. -/
def updateAll (f : σ → K → V → σ × V) : σ → List (K × V) → σ × List (K × V)
  | t, [] => (t, [])
  | t, e :: m => ((updateAll f (f t e.1 e.2).1 m).1, (e.1, (f t e.1 e.2).2) :: (updateAll f (f t e.1 e.2).1 m).2)

/-- `ForEachMutableIf`: the entries after the first false keep their values. -/
def updateWhile (f : σ → K → V → σ × V × Bool) : σ → List (K × V) → σ × List (K × V)
  | t, [] => (t, [])
  | t, e :: m =>
    if (f t e.1 e.2).2.2 then
      ((updateWhile f (f t e.1 e.2).1 m).1, (e.1, (f t e.1 e.2).2.1) :: (updateWhile f (f t e.1 e.2).1 m).2)
    else ((f t e.1 e.2).1, (e.1, (f t e.1 e.2).2.1) :: m)

/-- A sweep: the callback decides for each entry whether it is removed. -/
def sweep (f : σ → K → V → σ × Bool) : σ → List (K × V) → σ × List (K × V)
  | t, [] => (t, [])
  | t, e :: m =>
    if (f t e.1 e.2).2 then sweep f (f t e.1 e.2).1 m
    else ((sweep f (f t e.1 e.2).1 m).1, e :: (sweep f (f t e.1 e.2).1 m).2)

/-! ## The same for sequences of single elements (`visitAll` is `List.foldl`) -/

variable {T : Type}

def visitWhile1 (f : σ → T → σ × Bool) : σ → List T → σ
  | t, [] => t
  | t, x :: s => if (f t x).2 then visitWhile1 f (f t x).1 s else (f t x).1

def updateAll1 (f : σ → T → σ × T) : σ → List T → σ × List T
  | t, [] => (t, [])
  | t, x :: s => ((updateAll1 f (f t x).1 s).1, (f t x).2 :: (updateAll1 f (f t x).1 s).2)

def updateWhile1 (f : σ → T → σ × T × Bool) : σ → List T → σ × List T
  | t, [] => (t, [])
  | t, x :: s =>
    if (f t x).2.2 then ((updateWhile1 f (f t x).1 s).1, (f t x).2.1 :: (updateWhile1 f (f t x).1 s).2)
    else ((f t x).1, (f t x).2.1 :: s)

end Stl4go
