import Verif.Model.SkipListCopy
/-!
# Specifications of copies of skip lists

`OwnMaps`: a copy is a map of its own. `SharedMap`: there is one map, and the list and every copy has a counter of its own.
-/
namespace Stl4go
variable {K V : Type}

/-- A zero value has length 0 and can be cleared; the rest of its methods panic. -/
def SLCStmt.unusable : SMOp K V → SMObs K V
  | .len => .num 0
  | .isEmpty => .flag true
  | .clear => .unit
  | _ => .panicked

/-- What the methods of the list (`none`) and of the variables (`some i`) are about; `none` for a zero value. -/
abbrev OwnMaps (K V : Type) := Option Nat → Option (List (K × V))

/-- The list is empty, the variables are zero values. -/
def OwnMaps.init : OwnMaps K V := fun a => if a = none then some [] else none

/-- One statement, if a copy is a map of its own. A zero value cannot be used. -/
def OwnMaps.step (less : K → K → Bool) (s : OwnMaps K V) : SLCStmt K V → SMObs K V × OwnMaps K V
  | .op a _ o =>
    match s a with
    | none => (SLCStmt.unusable o, s)
    | some m => ((SMap.step less m o).1, fun b => if b = a then some (SMap.step less m o).2 else s b)
  | .copy i a => (.unit, fun b => if b = some i then s a else s b)

def OwnMaps.run (less : K → K → Bool) : OwnMaps K V → List (SLCStmt K V) → List (SMObs K V) × OwnMaps K V
  | s, [] => ([], s)
  | s, c :: h => ((OwnMaps.step less s c).1 :: (OwnMaps.run less (OwnMaps.step less s c).2 h).1, (OwnMaps.run less (OwnMaps.step less s c).2 h).2)

/-- One map for all, and the counters. -/
structure SharedMap (K V : Type) where
  m : List (K × V)
  n : Option Nat → Option Int

def SharedMap.init : SharedMap K V := { m := [], n := fun a => if a = none then some 0 else none }

/-- The counter of the one whose method is called: up for a new key, down for a key that was there, 0 for `Clear`. -/
def SharedMap.count (less : K → K → Bool) (m : List (K × V)) (n : Int) : SMOp K V → Int
  | .insert k _ => if (SMap.find less k m).isSome then n else n + 1
  | .remove k => if (SMap.find less k m).isSome then n - 1 else n
  | .clear => 0
  | _ => n

/-- What is observed: `Len` and `IsEmpty` show the counter, the others the map. -/
def SharedMap.show (less : K → K → Bool) (m : List (K × V)) (n : Int) : SMOp K V → SMObs K V
  | .len => .num n
  | .isEmpty => .flag (n == 0)
  | o => (SMap.step less m o).1

def SharedMap.step (less : K → K → Bool) (s : SharedMap K V) : SLCStmt K V → SMObs K V × SharedMap K V
  | .op a _ o =>
    match s.n a with
    | none => (SLCStmt.unusable o, s)
    | some n => (SharedMap.show less s.m n o,
        { m := (SMap.step less s.m o).2, n := fun b => if b = a then some (SharedMap.count less s.m n o) else s.n b })
  | .copy i a => (.unit, { s with n := fun b => if b = some i then s.n a else s.n b })

def SharedMap.run (less : K → K → Bool) : SharedMap K V → List (SLCStmt K V) → List (SMObs K V) × SharedMap K V
  | s, [] => ([], s)
  | s, c :: h => ((s.step less c).1 :: (SharedMap.run less (s.step less c).2 h).1, (SharedMap.run less (s.step less c).2 h).2)

/-- A copy gets no new key, except on levels that both the copy and the list have. -/
def SLCWorld.FairStmt (impl : SLImpl K) (w : SLCWorld K V) : SLCStmt K V → Prop
  | .op (some i) rnd (.insert k _) =>
    match w.vars i with
    | .zero => True
    | .copy own => w.sl.has impl k = .ret true ∨ ∃ l, SL.randomLevel { w.sl with len := own.len } rnd = .ret l ∧ l ≤ own.level ∧ l ≤ w.sl.level
  | _ => True

/-- Every statement of a history is. -/
def SLCWorld.Fair (impl : SLImpl K) : SLCWorld K V → List (SLCStmt K V) → Prop
  | _, [] => True
  | w, c :: h => w.FairStmt impl c ∧ ∀ ob w', w.step impl c = .ret (ob, w') → SLCWorld.Fair impl w' h

end Stl4go
