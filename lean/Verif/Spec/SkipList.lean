import Verif.Model.SkipList
import Verif.Spec.SortedMap
import Verif.Spec.Order
/-! # What the skip list theorems assume about key comparison, and how a client observes a skip list -/
namespace Stl4go
variable {K V : Type}

/-- The key order of a skip list: the operator `<`, or "the compare function returns a negative number". -/
def SLImpl.less (impl : SLImpl K) (a b : K) : Bool :=
  match impl with
  | .ordered ord => ord.lt a b
  | .func keyCmp => decide (keyCmp a b < 0)

/-- A usable compare function: "negative" is a strict weak order and 0 means neither is smaller. Any int values may be
returned, only the sign matters. -/
structure LawfulCmp (keyCmp : K → K → Int) : Prop where
  weak : StrictWeak (fun a b => decide (keyCmp a b < 0))
  zero_iff : ∀ a b, keyCmp a b = 0 ↔ Equiv (fun a b => decide (keyCmp a b < 0)) a b

/-- The keys are ordered: a lawful `Ordered` type (everything but floats with NaN), or a lawful compare function. -/
def SLImpl.Lawful (impl : SLImpl K) : Prop :=
  match impl with
  | .ordered ord => @LawfulGoOrd K ord
  | .func keyCmp => LawfulCmp keyCmp

/-- A client runs the loop `for ; it.IsNotEnd(); it.MoveToNext()` to its end and records what it sees. -/
def SL.observeIter (sl : SL K V) (it : SLIter) : Outcome (List (K × V)) := it.collect sl (sl.nodes.length + 1)

/-- One client operation: the list afterwards and the observation. `rnd` is what the random generator would return. -/
def SL.exec (impl : SLImpl K) (rnd : Nat) (sl : SL K V) : SMOp K V → Outcome (SL K V × SMObs K V)
  | .insert k v => do
    let sl ← sl.insert impl rnd k v
    return (sl, .unit)
  | .remove k => do
    let (sl, b) ← sl.remove impl k
    return (sl, .flag b)
  | .clear => .ret (sl.clear, .unit)
  | .update k v => do
    match ← sl.find impl k with
    | none => return (sl, .flag false)
    | some p =>
      let sl ← sl.setValue p v
      return (sl, .flag true)
  | .find k => do
    match ← sl.find impl k with
    | none => return (sl, .val none)
    | some p =>
      let v ← sl.readPtr p
      return (sl, .val (some v))
  | .has k => do
    let b ← sl.has impl k
    return (sl, .flag b)
  | .len => .ret (sl, .num sl.length)
  | .isEmpty => .ret (sl, .flag sl.isEmpty)
  | .iterate => do
    let it ← sl.iterate
    let l ← sl.observeIter it
    return (sl, .entries l)
  | .lowerBound k => do
    let it ← sl.lowerBoundIter impl k
    let l ← sl.observeIter it
    return (sl, .entries l)
  | .upperBound k => do
    let it ← sl.upperBoundIter impl k
    let l ← sl.observeIter it
    return (sl, .entries l)

/-- A history: each operation comes with the random number that would be drawn during it. The outcome is `ret` only if no
operation panics or hangs. -/
def SL.run (impl : SLImpl K) : SL K V → List (Nat × SMOp K V) → Outcome (SL K V × List (SMObs K V))
  | sl, [] => .ret (sl, [])
  | sl, (rnd, op) :: ops => do
    let (sl, ob) ← sl.exec impl rnd op
    let (sl, obs) ← SL.run impl sl ops
    return (sl, ob :: obs)

/-- The operations of a history, without the random numbers. -/
def opsOf (h : List (Nat × SMOp K V)) : List (SMOp K V) := h.map (·.2)

/-- The entries that a finite map contains after a history. -/
def SMap.after (less : K → K → Bool) (h : List (Nat × SMOp K V)) : List (K × V) := (SMap.run less [] (opsOf h)).2

/-- `sl` is the skip list that the history `h` builds from the constructor. -/
def SL.Built (impl : SLImpl K) (h : List (Nat × SMOp K V)) (sl : SL K V) : Prop :=
  ∃ obs, SL.run impl newSkipList h = .ret (sl, obs)

/-- From `sl` on, every history behaves as on the finite map with entries `m`. -/
def SL.Behaves (impl : SLImpl K) (sl : SL K V) (m : List (K × V)) : Prop :=
  ∀ h : List (Nat × SMOp K V), ∃ sl', SL.run impl sl h = .ret (sl', (SMap.run impl.less m (opsOf h)).1)

/-! ## Callbacks -/

variable {σ : Type}

/-- Callback of `ForEachMutableIf`: it reads and writes through the pointer it is given, and nothing else. -/
def mutIfOp (f : σ → K → V → σ × V × Bool) (s : SL K V × σ) (k : K) (p : Nat) : Outcome ((SL K V × σ) × Bool) := do
  let v ← s.1.readPtr p
  let sl ← s.1.setValue p (f s.2 k v).2.1
  return ((sl, (f s.2 k v).1), (f s.2 k v).2.2)

/-- Callback of `ForEachMutable`: it reads and writes through the pointer it is given, and nothing else. -/
def mutOp (f : σ → K → V → σ × V) (s : SL K V × σ) (k : K) (p : Nat) : Outcome (SL K V × σ) := do
  let v ← s.1.readPtr p
  let sl ← s.1.setValue p (f s.2 k v).2
  return (sl, (f s.2 k v).1)

/-- Callback of `ForEach` that calls `Remove` on the key it is given when `f` says so. -/
def sweepOp (impl : SLImpl K) (f : σ → K → V → σ × Bool) (s : SL K V × σ) (k : K) (v : V) : Outcome (SL K V × σ) :=
  if (f s.2 k v).2 then do
    let r ← s.1.remove impl k
    return (r.1, (f s.2 k v).1)
  else .ret (s.1, (f s.2 k v).1)

/-- The operation does not remove the entry of `key`. -/
def Keeps (less : K → K → Bool) (key : K) : SMOp K V → Prop
  | .clear => False
  | .remove k => less k key = true ∨ less key k = true
  | _ => True

end Stl4go
