import Verif.Model.BinarySearch
import Verif.Model.Sort
import Verif.Spec.Sort
import Verif.Spec.SortedSet
import Verif.Spec.Vector
/-!
# A vector that a client keeps sorted

The library has no bag (multiset) and no sorted set in one array, but a client gets one from a `Vector` and the binary searches of
`/repo/binary_search.go`. The programs of this file are those of the client, who calls functions of the library only. The specification of the bag
is the sequence of the elements it has, in the order in which they came: nothing is sorted there, and nothing is searched for by halving.
-/
namespace Stl4go
variable {T α : Type}

/-! ## The specification: elements in the order of their arrival -/

/-- What a client does with a bag. -/
inductive BagOp (T : Type) where
  | add (x : T)
  | addNew (x : T)          -- add unless an equivalent element is there
  | addMany (xs : List T)
  | dropOldest (x : T)      -- remove the first one that came of those equivalent to `x`
  | dropNewest (x : T)
  | dropBetween (a b : T)   -- remove what is not less than `a` and not greater than `b`
  | find (x : T)            -- the first one that came of those equivalent to `x`
  | count (x : T)
  | rank (x : T)            -- how many are less than `x`
  | nth (i : Int)           -- the element at place `i` in the order
  | popMin                  -- take out the least; the first one that came of several
  | popMax                  -- take out the greatest; the last one that came of several
  | len
  | values

/-- `y` is equivalent to `x`. -/
def like (less : T → T → Bool) (x y : T) : Bool := !less x y && !less y x

/-- Leave out the last element with `p`. -/
def eraseLast (p : T → Bool) (l : List T) : List T := (l.reverse.eraseP p).reverse

/-- One operation on the elements in the order of their arrival. -/
def SBag.step [GoZero T] (less : T → T → Bool) (l : List T) : BagOp T → DObs T × List T
  | .add x => (.unit, l ++ [x])
  | .addNew x => if l.any (like less x) then (.flag false, l) else (.flag true, l ++ [x])
  | .addMany xs => (.unit, l ++ xs)
  | .dropOldest x => (.flag (l.any (like less x)), l.eraseP (like less x))
  | .dropNewest x => (.flag (l.any (like less x)), eraseLast (like less x) l)
  | .dropBetween a b => (.num (l.filter (fun y => !less y a && !less b y)).length, l.filter (fun y => less y a || less b y))
  | .find x => match l.find? (like less x) with
    | some y => (.try_ y true, l)
    | none => (.try_ GoZero.zero false, l)
  | .count x => (.num (l.filter (like less x)).length, l)
  | .rank x => (.num (l.filter (fun y => less y x)).length, l)
  | .nth i => if h : 0 ≤ i ∧ i < (sortedStably less l).length then (.val ((sortedStably less l)[i.toNat]'(by omega)), l) else (.panicked, l)
  | .popMin => match (sortedStably less l).head? with
    | some x => (.val x, l.eraseP (like less x))
    | none => (.panicked, l)
  | .popMax => match (sortedStably less l).getLast? with
    | some x => (.val x, eraseLast (like less x) l)
    | none => (.panicked, l)
  | .len => (.num l.length, l)
  | .values => (.list (sortedStably less l), l)

/-- `dropBetween` is only for bounds in this order. -/
def BagOp.Valid (less : T → T → Bool) : BagOp T → Prop
  | .dropBetween a b => less b a = false
  | _ => True

/-- Any number of bags. -/
def SBag.after [GoZero T] (less : T → T → Bool) : (Nat → List T) → List (Nat × BagOp T) → List (DObs T) × (Nat → List T)
  | w, [] => ([], w)
  | w, (i, op) :: ops =>
    let r := SBag.step less (w i) op
    let rest := SBag.after less (fun j => if j = i then r.2 else w j) ops
    (r.1 :: rest.1, rest.2)

/-! ## The client's program: a vector, kept sorted -/

/-- A call of a function of `/repo/binary_search.go` with the vector as its slice. -/
def VS.look (f : List T → Outcome α) : GoM (VS T) α := fun s =>
  match f (s.v.read s.mem) with
  | .ret a => .ok a s
  | .panic => .panic s
  | .diverge => .diverge

/-- `v.Insert(i, x)`: the slice of the variadic call is made for it. -/
def Vec.insert1 [GoZero T] (i : Int) (x : T) : GoM (VS T) Unit := do
  let xs ← VS.on (Sl.lit [x])
  Vec.insert i xs

variable [GoZero T] (grow : Nat → Nat → Nat) (stable : Nat → SortProg) (less : T → T → Bool)

/-- `v.Insert(UpperBoundFunc(v, x, less), x)` -/
def SV.add (x : T) : GoM (VS T) Unit := do
  let i ← VS.look (upperBoundFunc · x less)
  Vec.insert1 (i : Int) x

/-- `_, ok := BinarySearchFunc(v, x, less); if !ok { v.Insert(LowerBoundFunc(v, x, less), x) }; return !ok` -/
def SV.addNew (x : T) : GoM (VS T) Bool := do
  let r ← VS.look (binarySearchFunc · x less)
  if r.2 then
    return false
  else
    let i ← VS.look (lowerBoundFunc · x less)
    Vec.insert1 (i : Int) x
    return true

/-- `v.Append(xs...); StableSortFunc(v, less)` -/
def SV.addMany (xs : List T) : GoM (VS T) Unit := do
  let x ← VS.on (Sl.lit xs)
  Vec.append grow x
  let v ← VS.recv
  VS.on (stableSortFunc stable v less)

/-- `i, ok := BinarySearchFunc(v, x, less); if ok { v.Remove(i) }; return ok` -/
def SV.dropOldest (x : T) : GoM (VS T) Bool := do
  let r ← VS.look (binarySearchFunc · x less)
  if r.2 then
    Vec.remove grow r.1
    return true
  else
    return false

/-- `_, ok := BinarySearchFunc(v, x, less); if ok { v.Remove(UpperBoundFunc(v, x, less) - 1) }; return ok` -/
def SV.dropNewest (x : T) : GoM (VS T) Bool := do
  let r ← VS.look (binarySearchFunc · x less)
  if r.2 then
    let u ← VS.look (upperBoundFunc · x less)
    Vec.remove grow ((u : Int) - 1)
    return true
  else
    return false

/-- `l, u := LowerBoundFunc(v, a, less), UpperBoundFunc(v, b, less); v.RemoveRange(l, u); return u - l` -/
def SV.dropBetween (a b : T) : GoM (VS T) Int := do
  let l ← VS.look (lowerBoundFunc · a less)
  let u ← VS.look (upperBoundFunc · b less)
  Vec.removeRange grow (l : Int) (u : Int)
  return (u : Int) - (l : Int)

/-- `if i, ok := BinarySearchFunc(v, x, less); ok { return v.At(i), true }; return zero, false` -/
def SV.find (x : T) : GoM (VS T) (T × Bool) := do
  let r ← VS.look (binarySearchFunc · x less)
  if r.2 then
    let y ← Vec.at r.1
    return (y, true)
  else
    return (GoZero.zero, false)

/-- `UpperBoundFunc(v, x, less) - LowerBoundFunc(v, x, less)` -/
def SV.count (x : T) : GoM (VS T) Int := do
  let u ← VS.look (upperBoundFunc · x less)
  let l ← VS.look (lowerBoundFunc · x less)
  return (u : Int) - (l : Int)

/-- `LowerBoundFunc(v, x, less)` -/
def SV.rank (x : T) : GoM (VS T) Int := do
  let l ← VS.look (lowerBoundFunc · x less)
  return (l : Int)

/-- `x := v.At(0); v.Remove(0); return x` -/
def SV.popMin : GoM (VS T) T := do
  let x ← Vec.at 0
  Vec.remove grow 0
  return x

/-- One operation of the client on the vector. -/
def SV.exec (s : VS T) : BagOp T → DObs T × VS T
  | .add x => VS.observe (fun _ => .unit) (SV.add less x) s
  | .addNew x => VS.observe .flag (SV.addNew less x) s
  | .addMany xs => VS.observe (fun _ => .unit) (SV.addMany grow stable less xs) s
  | .dropOldest x => VS.observe .flag (SV.dropOldest grow less x) s
  | .dropNewest x => VS.observe .flag (SV.dropNewest grow less x) s
  | .dropBetween a b => VS.observe .num (SV.dropBetween grow less a b) s
  | .find x => VS.observe (fun r => .try_ r.1 r.2) (SV.find less x) s
  | .count x => VS.observe .num (SV.count less x) s
  | .rank x => VS.observe .num (SV.rank less x) s
  | .nth i => VS.observe .val (Vec.at i) s
  | .popMin => VS.observe .val (SV.popMin grow) s
  | .popMax => VS.observe .val Vec.popBack s
  | .len => VS.observe .num Vec.len s
  | .values => VS.observe .list (do let it ← Vec.iterate; VS.on (it.collect (s.v.len + 1))) s

/-- A history on several sorted vectors over one memory. -/
def SV.run : VWorld T → List (Nat × BagOp T) → List (DObs T) × VWorld T
  | w, [] => ([], w)
  | w, (i, op) :: ops =>
    let r := SV.exec grow stable less { mem := w.mem, v := w.vars i } op
    let rest := SV.run { mem := r.2.mem, vars := fun j => if j = i then r.2.v else w.vars j } ops
    (r.1 :: rest.1, rest.2)

/-! ## The client's program: a set in a sorted vector -/

/-- `SV.addNew` for each value; the number of those that were new. -/
def SV.addNewN : List T → GoM (VS T) Int
  | [] => pure 0
  | x :: xs => do
    let b ← SV.addNew less x
    let n ← SV.addNewN xs
    return n + if b then 1 else 0

/-- `SV.dropOldest` for each value; the number of those that were there. -/
def SV.dropN : List T → GoM (VS T) Int
  | [] => pure 0
  | x :: xs => do
    let b ← SV.dropOldest grow less x
    let n ← SV.dropN xs
    return n + if b then 1 else 0

/-- `_, ok := BinarySearchFunc(v, x, less); return ok` -/
def SV.has (x : T) : GoM (VS T) Bool := do
  let r ← VS.look (binarySearchFunc · x less)
  return r.2

/-- `for it := v.IterateRange(i, v.Len()); it.IsNotEnd(); it.MoveToNext()`, collecting the values -/
def SV.from (i : Int) : GoM (VS T) (List T) := do
  let n ← Vec.len
  let it ← Vec.iterateRange i n
  VS.on (it.collect (n.toNat + 1))

/-- Turn a result into an observation of a set. -/
def VS.observeS (f : α → SSObs T) (x : GoM (VS T) α) (s : VS T) : Option (SSObs T) × VS T :=
  match x s with
  | .ok a s' => (some (f a), s')
  | .panic s' => (none, s')
  | .diverge => (none, s)

/-- One operation of a `SortedSet` on a sorted vector. `none` would be a panic or a loop without end. -/
def SV.setExec (s : VS T) : SSOp T → Option (SSObs T) × VS T
  | .insert _ k => VS.observeS .flag (SV.addNew less k) s
  | .insertN ks => VS.observeS .num (SV.addNewN less (ks.map (·.2))) s
  | .remove k => VS.observeS .flag (SV.dropOldest grow less k) s
  | .removeN ks => VS.observeS .num (SV.dropN grow less ks) s
  | .clear => VS.observeS (fun _ => .unit) Vec.clear s
  | .has k => VS.observeS .flag (SV.has less k) s
  | .len => VS.observeS .num Vec.len s
  | .isEmpty => VS.observeS .flag Vec.isEmpty s
  | .keys => VS.observeS .list (SV.from 0) s
  | .lowerBound k => VS.observeS .list (do let i ← VS.look (lowerBoundFunc · k less); SV.from (i : Int)) s
  | .upperBound k => VS.observeS .list (do let i ← VS.look (upperBoundFunc · k less); SV.from (i : Int)) s

/-- A history on one set in a sorted vector. -/
def SV.setRun : VS T → List (SSOp T) → List (Option (SSObs T)) × VS T
  | s, [] => ([], s)
  | s, op :: ops =>
    let r := SV.setExec grow less s op
    let rest := SV.setRun r.2 ops
    (r.1 :: rest.1, rest.2)

end Stl4go
