import Verif.Model.Basic
/-!
# Specification of a sorted map

A finite map is the list of its entries in strictly ascending key order. Nothing here refers to nodes, levels or pointers.
-/
namespace Stl4go
variable {K V : Type}

/-- Strictly ascending keys (so no two keys are equivalent). -/
def SMap.Sorted (less : K → K → Bool) (m : List (K × V)) : Prop :=
  m.Pairwise (fun a b => less a.1 b.1 = true)

/-- Value stored under a key equivalent to `k`. -/
def SMap.find (less : K → K → Bool) (k : K) : List (K × V) → Option V
  | [] => none
  | (k', v) :: m => if less k k' || less k' k then SMap.find less k m else some v

/-- Insert or replace; on replacement the stored key stays. -/
def SMap.insert (less : K → K → Bool) (k : K) (v : V) : List (K × V) → List (K × V)
  | [] => [(k, v)]
  | (k', v') :: m =>
    if less k k' then (k, v) :: (k', v') :: m
    else if less k' k then (k', v') :: SMap.insert less k v m
    else (k', v) :: m

/-- Drop the entries whose key is equivalent to `k`. -/
def SMap.erase (less : K → K → Bool) (k : K) (m : List (K × V)) : List (K × V) :=
  m.filter (fun e => less k e.1 || less e.1 k)

/-- Operations of a client of a sorted map. `update k v` is `if p := Find(k); p != nil { *p = v }`. -/
inductive SMOp (K V : Type) where
  | insert (k : K) (v : V)
  | remove (k : K)
  | clear
  | update (k : K) (v : V)
  | find (k : K)
  | has (k : K)
  | len
  | isEmpty
  | iterate
  | lowerBound (k : K)
  | upperBound (k : K)

/-- What the client observes; `entries` is what an iteration yields. -/
inductive SMObs (K V : Type) where
  | unit
  | val (v : Option V)
  | flag (b : Bool)
  | num (n : Int)
  | entries (l : List (K × V))
  | panicked
  | hung
deriving DecidableEq

/-- One operation on the specification: observation and map afterwards. -/
def SMap.step (less : K → K → Bool) (m : List (K × V)) : SMOp K V → SMObs K V × List (K × V)
  | .insert k v => (.unit, SMap.insert less k v m)
  | .remove k => (.flag (SMap.find less k m).isSome, SMap.erase less k m)
  | .clear => (.unit, [])
  | .update k v =>
    (.flag (SMap.find less k m).isSome, if (SMap.find less k m).isSome then SMap.insert less k v m else m)
  | .find k => (.val (SMap.find less k m), m)
  | .has k => (.flag (SMap.find less k m).isSome, m)
  | .len => (.num m.length, m)
  | .isEmpty => (.flag m.isEmpty, m)
  | .iterate => (.entries m, m)
  | .lowerBound k => (.entries (m.filter (fun e => !(less e.1 k))), m)
  | .upperBound k => (.entries (m.filter (fun e => less k e.1)), m)

/-- A history. -/
def SMap.run (less : K → K → Bool) : List (K × V) → List (SMOp K V) → List (SMObs K V) × List (K × V)
  | m, [] => ([], m)
  | m, op :: ops =>
    let r := SMap.step less m op
    let rest := SMap.run less r.2 ops
    (r.1 :: rest.1, rest.2)

end Stl4go
