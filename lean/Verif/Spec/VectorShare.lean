import Verif.Spec.VectorCursor
import Verif.Spec.Copies
/-!
# Specification of vectors that share arrays

A `Vector` is a slice: `v_i = v_j` and `v_i = v_j[lo:hi]` give two variables the same array. In this specification there are arrays, and every variable is a window of one of them.
-/
namespace Stl4go
variable {T : Type}

/-- A statement of a client. -/
inductive VStmt (T : Type) where
  | op (i : Nat) (o : VOp T)
  | cap (i : Nat)
  | copy (i j : Nat)                    -- `v_i = v_j`
  | part (i j : Nat) (lo hi : Int)      -- `v_i = v_j[lo:hi]`

def VStmt.Valid : VStmt T → Prop
  | .op _ o => o.Valid
  | _ => True

/-- What a variable shows of array `id`: `len` places from `lo` on; it may grow up to `cap` places. -/
structure Win where
  id : Nat
  lo : Nat
  len : Nat
  cap : Nat
deriving DecidableEq, Repr

/-- Arrays and variables. -/
structure Shared (T : Type) where
  arrs : List (List T)
  wins : Nat → Win

/-- Every variable is nil. -/
def Shared.init : Shared T := { arrs := [[]], wins := fun _ => ⟨0, 0, 0, 0⟩ }

/-- The array with number `id`. -/
def Shared.arr (a : Shared T) (id : Nat) : List T := a.arrs[id]?.getD []

/-- What variable `i` shows. -/
def Shared.seq (a : Shared T) (i : Nat) : List T := ((a.arr (a.wins i).id).drop (a.wins i).lo).take (a.wins i).len

/-- The list `l` with `xs` in the places from `p` on. -/
def overlay (l : List T) (p : Nat) (xs : List T) : List T := l.take p ++ xs ++ l.drop (p + xs.length)

/-- An operation on variable `i`: it gets a new array (`VOp.moves`), or the elements take their places in the array it has; places they leave become zero. -/
def Shared.op [GoZero T] (grow : Nat → Nat → Nat) (a : Shared T) (i : Nat) (o : VOp T) : Shared T :=
  let w := a.wins i
  let s' := (VSeq.step (a.seq i) o).2
  if o.moves w.cap (a.seq i) = true then
    { arrs := a.arrs ++ [padded (o.newCap grow w.cap (a.seq i)) s'], wins := upd a.wins i ⟨a.arrs.length, 0, s'.length, o.newCap grow w.cap (a.seq i)⟩ }
  else
    { arrs := a.arrs.set w.id (overlay (a.arr w.id) w.lo (padded w.len s')), wins := upd a.wins i { w with len := s'.length } }

/-- One statement. -/
def Shared.stmt [GoZero T] (grow : Nat → Nat → Nat) (a : Shared T) : VStmt T → DObs T × Shared T
  | .op i o => ((VSeq.step (a.seq i) o).1, a.op grow i o)
  | .cap i => (.num (a.wins i).cap, a)
  | .copy i j => (.unit, { a with wins := upd a.wins i (a.wins j) })
  | .part i j lo hi =>
    if 0 ≤ lo ∧ lo ≤ hi ∧ hi ≤ (a.wins j).cap then
      (.unit, { a with wins := upd a.wins i ⟨(a.wins j).id, (a.wins j).lo + lo.toNat, (hi - lo).toNat, (a.wins j).cap - lo.toNat⟩ })
    else (.panicked, a)

def Shared.run [GoZero T] (grow : Nat → Nat → Nat) : Shared T → List (VStmt T) → List (DObs T) × Shared T
  | a, [] => ([], a)
  | a, c :: h => ((a.stmt grow c).1 :: (Shared.run grow (a.stmt grow c).2 h).1, (Shared.run grow (a.stmt grow c).2 h).2)

/-! ## As sequences of their own -/

/-- One statement if every variable is a sequence of its own. There are no capacities then. -/
def VSeq.stmt [GoZero T] (s : Nat → List T) : VStmt T → DObs T × (Nat → List T)
  | .op i o => ((VSeq.step (s i) o).1, upd s i (VSeq.step (s i) o).2)
  | .cap _ => (.unit, s)
  | .copy i j => (.unit, upd s i (s j))
  | .part i j lo hi => if 0 ≤ lo ∧ lo ≤ hi ∧ hi ≤ (s j).length then (.unit, upd s i (((s j).drop lo.toNat).take (hi - lo).toNat)) else (.panicked, s)

def VSeq.runC [GoZero T] : (Nat → List T) → List (VStmt T) → List (DObs T) × (Nat → List T)
  | s, [] => ([], s)
  | s, c :: h => ((VSeq.stmt s c).1 :: (VSeq.runC (VSeq.stmt s c).2 h).1, (VSeq.runC (VSeq.stmt s c).2 h).2)

/-- Window `u` shows nothing of what changes when the elements `s` of window `w` become `s'` in their places. -/
def Win.Misses (w u : Win) (s s' : List T) : Prop :=
  u.id ≠ w.id ∨ u.len = 0 ∨ (∃ p, p ≤ s.length ∧ p ≤ s'.length ∧ s'.take p = s.take p ∧ u.lo + u.len ≤ w.lo + p) ∨ w.lo + max s.length s'.length ≤ u.lo

/-- The statement changes no place that another variable shows, takes parts of the elements only, and does not look at capacities. -/
def Shared.FairStmt [GoZero T] (a : Shared T) : VStmt T → Prop
  | .op i o => o.moves (a.wins i).cap (a.seq i) = false → ∀ k, k ≠ i → (a.wins i).Misses (a.wins k) (a.seq i) (VSeq.step (a.seq i) o).2
  | .part _ j _ hi => hi ≤ (a.seq j).length ∨ (a.wins j).cap < hi
  | .copy _ _ => True
  | .cap _ => False

/-- All statements of the history do so. -/
def Shared.Fair [GoZero T] (grow : Nat → Nat → Nat) : Shared T → List (VStmt T) → Prop
  | _, [] => True
  | a, c :: h => a.FairStmt c ∧ Shared.Fair grow (a.stmt grow c).2 h

/-! ## Running the model -/

/-- One statement on the model. -/
def VWorld.stmt [GoZero T] (grow : Nat → Nat → Nat) (w : VWorld T) : VStmt T → DObs T × VWorld T
  | .op i o =>
    ((Vec.exec grow { mem := w.mem, v := w.vars i } o).1,
      { mem := (Vec.exec grow { mem := w.mem, v := w.vars i } o).2.mem, vars := upd w.vars i (Vec.exec grow { mem := w.mem, v := w.vars i } o).2.v })
  | .cap i => ((VS.observe .num Vec.cap { mem := w.mem, v := w.vars i }).1, w)
  | .copy i j => (.unit, { w with vars := upd w.vars i (w.vars j) })
  | .part i j lo hi =>
    match (w.vars j).slice lo hi w.mem with
    | .ok v m => (.unit, { mem := m, vars := upd w.vars i v })
    | .panic m => (.panicked, { w with mem := m })
    | .diverge => (.hung, w)

def VWorld.runC [GoZero T] (grow : Nat → Nat → Nat) : VWorld T → List (VStmt T) → List (DObs T) × VWorld T
  | w, [] => ([], w)
  | w, c :: h => ((w.stmt grow c).1 :: (VWorld.runC grow (w.stmt grow c).2 h).1, (VWorld.runC grow (w.stmt grow c).2 h).2)

/-- A client finds the elements `s` in variable `i`, and the capacity `c`. -/
def VWorld.Shows [GoZero T] (grow : Nat → Nat → Nat) (w : VWorld T) (i : Nat) (s : List T) (c : Nat) : Prop :=
  (w.stmt grow (.op i .values)).1 = .list s ∧ (w.stmt grow (.cap i)).1 = .num c

end Stl4go
