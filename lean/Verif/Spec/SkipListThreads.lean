import Verif.Model.SkipListThreads
import Verif.Spec.Goroutines
import Verif.Spec.SkipList
/-!
# Goroutines that share a skip list: what they touch, and what they should find
-/
namespace Stl4go
variable {K V α : Type}

/-- A call that has ended, without the list that a panic leaves. -/
def Res.pair {σ : Type} : Res σ α → Outcome (α × σ)
  | .ok a s => .ret (a, s)
  | .panic _ => .panic
  | .diverge => .diverge

/-- Everything but the values: levels, links, keys, the counter and the cache. -/
def SL.blank (sl : SL K V) : SL K Unit :=
  { level := sl.level, len := sl.len, headNext := sl.headNext, prevsCache := sl.prevsCache, nodes := sl.nodes.map (fun n => { key := n.key, value := (), next := n.next }) }

/-- The value in node `p`. -/
def SL.valAt (sl : SL K V) (p : Nat) : Option V := sl.nodes[p]?.map (·.value)

/-- The nodes whose value a call looks at. -/
def SGCall.sees (impl : SLImpl K) (sl : SL K V) : SGCall K V → Nat → Prop
  | .find k | .update k _ => fun p => sl.find impl k = .ret (some p)
  | .forEach | .forEachMutable _ => fun p => p < sl.nodes.length
  | _ => fun _ => False

/-- The nodes whose value a call writes. -/
def SGCall.changes (impl : SLImpl K) (sl : SL K V) : SGCall K V → Nat → Prop
  | .update k _ => fun p => sl.find impl k = .ret (some p)
  | .forEachMutable _ => fun p => p < sl.nodes.length
  | _ => fun _ => False

/-- No other call writes a value that call `i` looks at. The others may be at odds with each other. -/
def SGAlone (impl : SLImpl K) (sl : SL K V) (cs : Nat → SGCall K V) (i : Nat) : Prop :=
  ∀ j, j ≠ i → ∀ p, (cs j).changes impl sl p → ¬ (cs i).sees impl sl p

/-- How a goroutine has ended, if it has. -/
def SGThread.ended : SGThread K V α → Option (Outcome α)
  | .ret a => some (.ret a)
  | .panic => some .panic
  | .diverge => some .diverge
  | _ => none

/-- The fields of a list and its nodes. -/
inductive SGLoc where
  | level
  | len
  | next (r : Ref) (i : Nat)
  | key (p : Nat)
  | value (p : Nat)
deriving DecidableEq, Repr

/-- The next access: the field, and whether it is a write. -/
def SGThread.upcoming : SGThread K V α → Option (SGLoc × Bool)
  | .level _ => some (.level, false)
  | .len _ => some (.len, false)
  | .next r i _ => some (.next r i, false)
  | .key p _ => some (.key p, false)
  | .value p _ => some (.value p, false)
  | .setValue p _ _ => some (.value p, true)
  | _ => none

/-- The number of accesses that a goroutine on its own makes, from list `sl`. An access that panics counts. -/
def SGThread.steps : SGThread K V α → SL K V → Nat
  | .level k, sl => (k sl.level).steps sl + 1
  | .len k, sl => (k sl.len).steps sl + 1
  | .next r i k, sl =>
    match sl.nextAt r i with
    | .ret v => (k v).steps sl + 1
    | _ => 1
  | .key p k, sl =>
    match sl.deref p with
    | .ret n => (k n.key).steps sl + 1
    | _ => 1
  | .value p k, sl =>
    match sl.deref p with
    | .ret n => (k n.value).steps sl + 1
    | _ => 1
  | .setValue p v k, sl =>
    match sl.setValue p v with
    | .ret sl => k.steps sl + 1
    | _ => 1
  | _, _ => 0

/-- The calls `order` one after another, each as one step. -/
def SGCall.serial (impl : SLImpl K) (cs : Nat → SGCall K V) : List Nat → SL K V → Outcome (List (SGRet K V) × SL K V)
  | [], sl => .ret ([], sl)
  | i :: order, sl => do
    let (r, sl) ← (cs i).call impl sl
    let (rs, sl) ← SGCall.serial impl cs order sl
    return (r :: rs, sl)

/-! ## On finite maps -/

/-- What a call returns, and the entries afterwards, if the entries are `m`, in increasing order of keys. -/
def SGCall.spec (less : K → K → Bool) (m : List (K × V)) : SGCall K V → SGRet K V × List (K × V)
  | .find k => (.val (SMap.find less k m), m)
  | .has k => (.flag (SMap.find less k m).isSome, m)
  | .update k f =>
    match SMap.find less k m with
    | some v => (.flag true, SMap.insert less k (f v) m)
    | none => (.flag false, m)
  | .lowerBound k => (.key ((m.find? (fun e => !less e.1 k)).map (·.1)), m)
  | .upperBound k => (.key ((m.find? (fun e => less k e.1)).map (·.1)), m)
  | .len => (.num m.length, m)
  | .forEach => (.entries m, m)
  | .forEachMutable f => (.unit, m.map (fun e => (e.1, f e.1 e.2)))

/-- The keys whose values a call looks at. -/
def SGCall.looksAt (less : K → K → Bool) : SGCall K V → K → Prop
  | .find k | .update k _ => fun a => less a k = false ∧ less k a = false
  | .forEach | .forEachMutable _ => fun _ => True
  | _ => fun _ => False

/-- The keys whose values a call writes. -/
def SGCall.writesTo (less : K → K → Bool) : SGCall K V → K → Prop
  | .update k _ => fun a => less a k = false ∧ less k a = false
  | .forEachMutable _ => fun _ => True
  | _ => fun _ => False

/-- Calls that may run side by side: a key whose value one of them writes is a key at whose value no other looks. -/
def SGApart (less : K → K → Bool) (cs : Nat → SGCall K V) : Prop := ∀ i j, i ≠ j → ∀ k, (cs i).writesTo less k → ¬ (cs j).looksAt less k

end Stl4go
