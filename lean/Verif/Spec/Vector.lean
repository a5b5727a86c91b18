import Verif.Model.Vector
import Verif.Spec.Deque
import Verif.Spec.Transform
/-! # Specification of `Vector` as a sequence -/
namespace Stl4go
variable {T : Type}

/-- Operations of a client. -/
inductive VOp (T : Type) where
  | make                            -- `v = MakeVector()`
  | makeCap (c : Int)               -- `v = MakeVectorCap(c)`
  | of (xs : List T)                -- `v = VectorOf(xs...)`
  | len
  | isEmpty
  | clear
  | reserve (l : Int)
  | shrink
  | at (i : Int)
  | set (i : Int) (x : T)
  | pushBack (x : T)
  | popBack
  | tryPopBack
  | back
  | append (xs : List T)
  | insert (i : Int) (xs : List T)
  | remove (i : Int)
  | removeRange (i j : Int)
  | removeLength (i n : Int)
  | removeIf (cond : List T → T → Bool)   -- the answer may depend on the elements seen before
  | values                          -- list the elements with an iterator

/-- A range that is not upside down. Every other argument is allowed, in range or not. -/
def VOp.Valid : VOp T → Prop
  | .removeRange i j => i ≤ j
  | .removeLength _ n => 0 ≤ n
  | _ => True

/-- The callback of `removeIf`: its state is the list of elements seen. -/
def seenCond (cond : List T → T → Bool) (seen : List T) (x : T) : List T × Bool := (seen ++ [x], cond seen x)

/-- Removal of positions `i` to `j-1`. -/
def VSeq.cut (s : List T) (i j : Int) : DObs T × List T :=
  if 0 ≤ i ∧ i ≤ j ∧ j ≤ s.length then (.unit, s.take i.toNat ++ s.drop j.toNat) else (.panicked, s)

/-- One operation on a sequence. -/
def VSeq.step [GoZero T] (s : List T) : VOp T → DObs T × List T
  | .make => (.unit, [])
  | .makeCap c => if 0 ≤ c then (.unit, []) else (.panicked, s)
  | .of xs => (.unit, xs)
  | .len => (.num s.length, s)
  | .isEmpty => (.flag s.isEmpty, s)
  | .clear => (.unit, [])
  | .reserve _ => (.unit, s)
  | .shrink => (.unit, s)
  | .at i => if h : 0 ≤ i ∧ i < s.length then (.val (s[i.toNat]'(by omega)), s) else (.panicked, s)
  | .set i x => if 0 ≤ i ∧ i < s.length then (.unit, s.set i.toNat x) else (.panicked, s)
  | .pushBack x => (.unit, s ++ [x])
  | .popBack => match s.getLast? with
    | none => (.panicked, s)
    | some x => (.val x, s.dropLast)
  | .tryPopBack => match s.getLast? with
    | none => (.try_ GoZero.zero false, s)
    | some x => (.try_ x true, s.dropLast)
  | .back => match s.getLast? with
    | none => (.panicked, s)
    | some x => (.val x, s)
  | .append xs => (.unit, s ++ xs)
  | .insert i xs => if 0 ≤ i ∧ i ≤ s.length then (.unit, s.take i.toNat ++ xs ++ s.drop i.toNat) else (.panicked, s)
  | .remove i => VSeq.cut s i (i + 1)
  | .removeRange i j => VSeq.cut s i j
  | .removeLength i n => VSeq.cut s i (i + n)
  | .removeIf cond => (.unit, (rejectS (seenCond cond) [] s).2)
  | .values => (.list s, s)

/-- Any number of sequences, named by numbers. -/
def VSeq.run [GoZero T] : (Nat → List T) → List (Nat × VOp T) → List (DObs T) × (Nat → List T)
  | w, [] => ([], w)
  | w, (i, op) :: ops =>
    let r := VSeq.step (w i) op
    let rest := VSeq.run (fun j => if j = i then r.2 else w j) ops
    (r.1 :: rest.1, rest.2)

/-! ## Running the model -/

/-- Turn a result into an observation. -/
def VS.observe {α : Type} (f : α → DObs T) (m : GoM (VS T) α) (s : VS T) : DObs T × VS T :=
  match m s with
  | .ok a s' => (f a, s')
  | .panic s' => (.panicked, s')
  | .diverge => (.hung, s)

/-- One client operation on the model. The values of a variadic call are in a slice made for the call. -/
def Vec.exec [GoZero T] (grow : Nat → Nat → Nat) (s : VS T) : VOp T → DObs T × VS T
  | .make => VS.observe (fun _ => .unit) Vec.make s
  | .makeCap c => VS.observe (fun _ => .unit) (Vec.makeCap c) s
  | .of xs => VS.observe (fun _ => .unit) (Vec.of xs) s
  | .len => VS.observe .num Vec.len s
  | .isEmpty => VS.observe .flag Vec.isEmpty s
  | .clear => VS.observe (fun _ => .unit) Vec.clear s
  | .reserve l => VS.observe (fun _ => .unit) (Vec.reserve l) s
  | .shrink => VS.observe (fun _ => .unit) (Vec.shrink grow) s
  | .at i => VS.observe .val (Vec.at i) s
  | .set i x => VS.observe (fun _ => .unit) (Vec.set i x) s
  | .pushBack x => VS.observe (fun _ => .unit) (Vec.pushBack grow x) s
  | .popBack => VS.observe .val Vec.popBack s
  | .tryPopBack => VS.observe (fun r => .try_ r.1 r.2) Vec.tryPopBack s
  | .back => VS.observe .val Vec.back s
  | .append xs => VS.observe (fun _ => .unit) (do let x ← VS.on (Sl.lit xs); Vec.append grow x) s
  | .insert i xs => VS.observe (fun _ => .unit) (do let x ← VS.on (Sl.lit xs); Vec.insert i x) s
  | .remove i => VS.observe (fun _ => .unit) (Vec.remove grow i) s
  | .removeRange i j => VS.observe (fun _ => .unit) (Vec.removeRange grow i j) s
  | .removeLength i n => VS.observe (fun _ => .unit) (Vec.removeLength grow i n) s
  | .removeIf cond => VS.observe (fun _ => .unit) (Vec.removeIf (seenCond cond) []) s
  | .values => VS.observe .list (do let it ← Vec.iterate; VS.on (it.collect (s.v.len + 1))) s

/-- Several `Vector` variables over one memory. -/
structure VWorld (T : Type) where
  mem : Mem T
  vars : Nat → Sl

/-- Every variable is a nil vector; `init` holds any cells another part of the program has. -/
def VWorld.init (m : Mem T) : VWorld T := { mem := m, vars := fun _ => Sl.empty }

/-- A history on several vectors. -/
def VWorld.run [GoZero T] (grow : Nat → Nat → Nat) : VWorld T → List (Nat × VOp T) → List (DObs T) × VWorld T
  | w, [] => ([], w)
  | w, (i, op) :: ops =>
    let r := Vec.exec grow { mem := w.mem, v := w.vars i } op
    let rest := VWorld.run grow { mem := r.2.mem, vars := fun j => if j = i then r.2.v else w.vars j } ops
    (r.1 :: rest.1, rest.2)

/-- The unused part of the vector's array, from `Len()` to `Cap()`, is zero. -/
def Clean [GoZero T] (m : Mem T) (v : Sl) : Prop := ∀ k, v.len ≤ k → k < v.cap → m.cell (v.off + k) = GoZero.zero

/-- Address `k` is in the vector's array. -/
def Sl.Has (v : Sl) (k : Nat) : Prop := v.off ≤ k ∧ k < v.off + v.cap

/-- Observations of the operations on vector `i`. -/
def VSeq.obsOf (i : Nat) : List (Nat × VOp T) → List (DObs T) → List (DObs T)
  | (j, _) :: h, o :: os => if j = i then o :: VSeq.obsOf i h os else VSeq.obsOf i h os
  | _, _ => []

end Stl4go
