import Verif.Spec.Vector
/-!
# Specification of vector iterators while the vectors change

A vector has one array after another. An iterator stays with a part of the array that its vector had when the iterator was made.
-/
namespace Stl4go
variable {T : Type}

/-- Does the operation give a vector with elements `s` and capacity `cap` another array? -/
def VOp.moves (cap : Nat) (s : List T) : VOp T → Bool
  | .make => true
  | .makeCap c => decide (0 ≤ c)
  | .of _ => true
  | .reserve l => decide ((cap : Int) < l)
  | .shrink => decide (s.length < cap)
  | .pushBack _ => decide (cap < s.length + 1)
  | .append xs => decide (cap < s.length + xs.length)
  | .insert i xs => decide ((0 ≤ i ∧ i ≤ s.length) ∧ cap < s.length + xs.length)
  | _ => false

/-- The size of that array. `grow` are the choices of the runtime. -/
def VOp.newCap (grow : Nat → Nat → Nat) (cap : Nat) (s : List T) : VOp T → Nat
  | .makeCap c => c.toNat
  | .of xs => xs.length
  | .reserve l => l.toNat
  | .shrink => if s.length = 0 then 0 else max s.length (grow 0 s.length)
  | .pushBack _ => max (s.length + 1) (grow cap (s.length + 1))
  | .append xs => max (s.length + xs.length) (grow cap (s.length + xs.length))
  | .insert _ xs => s.length + xs.length
  | _ => 0

/-- An array of `n` values that starts with `s`; the rest is zero. -/
def padded [GoZero T] (n : Nat) (s : List T) : List T := s ++ List.replicate (n - s.length) GoZero.zero

/-- The array `a` after the elements `s` have taken the place of its first `n` values: values that are no longer in use become zero, what was
not in use before and is not now stays. -/
def rewritten [GoZero T] (a : List T) (n : Nat) (s : List T) : List T := padded n s ++ a.drop (max n s.length)

/-- All arrays that vectors have had: `arr i g` is the array number `g` of vector `i`, `gen i` the number of the one it has now, `len i` its
length. -/
structure VArrays (T : Type) where
  arr : Nat → Nat → List T
  gen : Nat → Nat
  len : Nat → Nat

/-- The array that vector `i` has now. -/
def VArrays.now (a : VArrays T) (i : Nat) : List T := a.arr i (a.gen i)

/-- The elements of vector `i`. -/
def VArrays.seq (a : VArrays T) (i : Nat) : List T := (a.now i).take (a.len i)

/-- The capacity of vector `i`. -/
def VArrays.cap (a : VArrays T) (i : Nat) : Nat := (a.now i).length

/-- The contents of one array change. -/
def VArrays.put (a : VArrays T) (i g : Nat) (l : List T) : VArrays T :=
  { a with arr := fun j k => if j = i ∧ k = g then l else a.arr j k }

/-- One operation on vector `i`. -/
def VArrays.step [GoZero T] (grow : Nat → Nat → Nat) (a : VArrays T) (i : Nat) (op : VOp T) : DObs T × VArrays T :=
  let r := VSeq.step (a.seq i) op
  let a' :=
    if op.moves (a.cap i) (a.seq i) = true then
      { a.put i (a.gen i + 1) (padded (op.newCap grow (a.cap i) (a.seq i)) r.2) with gen := fun j => if j = i then a.gen i + 1 else a.gen j }
    else a.put i (a.gen i) (rewritten (a.now i) (a.len i) r.2)
  (r.1, { a' with len := fun j => if j = i then r.2.length else a.len j })

/-- An iterator: `n` values of the array `g` of vector `i`, from position `lo` on; `pos` of them have been passed. -/
structure VCur where
  i : Nat
  g : Nat
  lo : Nat
  n : Nat
  pos : Nat
deriving DecidableEq, Repr

/-- What a client may do. Iterators are numbered in the order in which they are made. -/
inductive VIOp (T : Type) where
  | vec (i : Nat) (op : VOp T)              -- an operation on vector `i`
  | cap (i : Nat)
  | iterate (i : Nat)
  | iterateRange (i : Nat) (lo hi : Int)
  | isNotEnd (k : Nat)
  | moveToNext (k : Nat)
  | value (k : Nat)                         -- `it.Value()` or `*it.Pointer()`
  | store (k : Nat) (x : T)                 -- `*it.Pointer() = x`

def VIOp.Valid : VIOp T → Prop
  | .vec _ op => op.Valid
  | _ => True

/-- One step on the arrays. There is no iterator `k`: nothing happens. -/
def VArrays.exec [GoZero T] (grow : Nat → Nat → Nat) (a : VArrays T) (cs : List VCur) : VIOp T → DObs T × VArrays T × List VCur
  | .vec i op => ((a.step grow i op).1, (a.step grow i op).2, cs)
  | .cap i => (.num (a.cap i), a, cs)
  | .iterate i => (.unit, a, cs ++ [{ i := i, g := a.gen i, lo := 0, n := a.len i, pos := 0 }])
  | .iterateRange i lo hi =>
    if 0 ≤ lo ∧ lo ≤ hi ∧ hi ≤ a.cap i then
      (.unit, a, cs ++ [{ i := i, g := a.gen i, lo := lo.toNat, n := (hi - lo).toNat, pos := 0 }])
    else (.panicked, a, cs)
  | .isNotEnd k => match cs[k]? with
    | none => (.unit, a, cs)
    | some c => (.flag (decide (c.pos < c.n)), a, cs)
  | .moveToNext k => match cs[k]? with
    | none => (.unit, a, cs)
    | some c => (.unit, a, cs.set k { c with pos := c.pos + 1 })
  | .value k => match cs[k]? with
    | none => (.unit, a, cs)
    | some c =>
      if c.pos < c.n then
        match (a.arr c.i c.g)[c.lo + c.pos]? with
        | some x => (.val x, a, cs)
        | none => (.hung, a, cs)
      else (.panicked, a, cs)
  | .store k x => match cs[k]? with
    | none => (.unit, a, cs)
    | some c =>
      if c.pos < c.n then (.unit, a.put c.i c.g ((a.arr c.i c.g).set (c.lo + c.pos) x), cs)
      else (.panicked, a, cs)

def VArrays.run [GoZero T] (grow : Nat → Nat → Nat) : VArrays T → List VCur → List (VIOp T) → List (DObs T) × VArrays T × List VCur
  | a, cs, [] => ([], a, cs)
  | a, cs, op :: ops =>
    let r := a.exec grow cs op
    let rest := VArrays.run grow r.2.1 r.2.2 ops
    (r.1 :: rest.1, rest.2)

/-- Every vector is nil. -/
def VArrays.init : VArrays T := { arr := fun _ _ => [], gen := fun _ => 0, len := fun _ => 0 }

/-- The values that an iterator still has to show. -/
def VArrays.rest (a : VArrays T) (c : VCur) : List T := ((a.arr c.i c.g).drop (c.lo + c.pos)).take (c.n - c.pos)

/-- Operations that keep the elements where they are; they may only add new ones at the end, or take another array. -/
def VOp.grows : VOp T → Bool
  | .len | .isEmpty | .reserve _ | .shrink | .at _ | .pushBack _ | .back | .append _ | .values => true
  | _ => false

/-- Steps that neither store through an iterator nor move iterator `k`, and that change vector `i` only by `grows`. -/
def VIOp.Keeps (i k : Nat) : VIOp T → Prop
  | .vec j op => j ≠ i ∨ op.grows = true
  | .moveToNext k' => k' ≠ k
  | .store _ _ => False
  | _ => True

/-- Steps that neither store through an iterator nor move iterator `k`. -/
def VIOp.Leaves (k : Nat) : VIOp T → Prop
  | .moveToNext k' => k' ≠ k
  | .store _ _ => False
  | _ => True

/-- A client loop that goes on with iterator `k`, for `n` elements. -/
def listing (k : Nat) : Nat → List (VIOp T)
  | 0 => [.isNotEnd k]
  | n + 1 => .isNotEnd k :: .value k :: .moveToNext k :: listing k n

/-- What the loop sees when the iterator shows `xs`. -/
def listed : List T → List (DObs T)
  | [] => [.flag false]
  | x :: xs => .flag true :: .val x :: .unit :: listed xs

/-! ## Running the model -/

/-- Vectors over one memory, and iterators. -/
structure VIWorld (T : Type) where
  w : VWorld T
  its : List VIter

/-- An operation on the memory, observed. -/
def VIWorld.observe {α : Type} (f : α → DObs T) (x : GoM (Mem T) α) (s : VIWorld T) : DObs T × VIWorld T :=
  match x s.w.mem with
  | .ok a m => (f a, { s with w := { s.w with mem := m } })
  | .panic m => (.panicked, { s with w := { s.w with mem := m } })
  | .diverge => (.hung, s)

/-- An operation that makes an iterator on vector `i`. -/
def VIWorld.open (x : GoM (VS T) VIter) (i : Nat) (s : VIWorld T) : DObs T × VIWorld T :=
  match x { mem := s.w.mem, v := s.w.vars i } with
  | .ok it _ => (.unit, { s with its := s.its ++ [it] })
  | .panic _ => (.panicked, s)
  | .diverge => (.hung, s)

/-- One step on the model. -/
def VIWorld.exec [GoZero T] (grow : Nat → Nat → Nat) (s : VIWorld T) : VIOp T → DObs T × VIWorld T
  | .vec i op =>
    let r := Vec.exec grow { mem := s.w.mem, v := s.w.vars i } op
    (r.1, { s with w := { mem := r.2.mem, vars := fun j => if j = i then r.2.v else s.w.vars j } })
  | .cap i => ((VS.observe .num Vec.cap { mem := s.w.mem, v := s.w.vars i }).1, s)
  | .iterate i => s.open Vec.iterate i
  | .iterateRange i lo hi => s.open (Vec.iterateRange lo hi) i
  | .isNotEnd k => match s.its[k]? with
    | none => (.unit, s)
    | some it => (.flag it.isNotEnd, s)
  | .moveToNext k => match s.its[k]? with
    | none => (.unit, s)
    | some it => (.unit, { s with its := s.its.set k it.moveToNext })
  | .value k => match s.its[k]? with
    | none => (.unit, s)
    | some it => s.observe .val it.value
  | .store k x => match s.its[k]? with
    | none => (.unit, s)
    | some it => s.observe (fun _ => .unit) (it.store x)

def VIWorld.run [GoZero T] (grow : Nat → Nat → Nat) : VIWorld T → List (VIOp T) → List (DObs T) × VIWorld T
  | s, [] => ([], s)
  | s, op :: ops =>
    let r := s.exec grow op
    let rest := VIWorld.run grow r.2 ops
    (r.1 :: rest.1, rest.2)

/-- Every variable is a nil vector, there are no iterators. -/
def VIWorld.init (m : Mem T) : VIWorld T := { w := VWorld.init m, its := [] }

/-- The state of the model after a history that starts with nil vectors and no iterators. -/
def VIWorld.after [GoZero T] (grow : Nat → Nat → Nat) (m : Mem T) (h : List (VIOp T)) : VIWorld T := (VIWorld.run grow (VIWorld.init m) h).2

/-- A client finds the elements `s` in vector `i`, and the capacity `c`. -/
def VIWorld.Shows [GoZero T] (grow : Nat → Nat → Nat) (w : VIWorld T) (i : Nat) (s : List T) (c : Nat) : Prop :=
  (w.exec grow (.vec i .values)).1 = .list s ∧ (w.exec grow (.cap i)).1 = .num c

end Stl4go
