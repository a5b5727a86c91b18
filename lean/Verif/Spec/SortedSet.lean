import Verif.Model.SkipListSet
/-!
# Specification of a sorted set

A finite set is the list of its elements in strictly ascending order.
-/
namespace Stl4go
variable {K : Type}

/-- Strictly ascending. -/
def SSet.Sorted (less : K → K → Bool) (s : List K) : Prop := s.Pairwise (fun a b => less a b = true)

/-- Some element is equivalent to `k`. -/
def SSet.mem (less : K → K → Bool) (k : K) (s : List K) : Bool := s.any (fun x => !less k x && !less x k)

/-- Add an element between the smaller and the greater ones, unless it is present. -/
def SSet.add (less : K → K → Bool) (k : K) (s : List K) : List K :=
  if SSet.mem less k s then s else s.filter (fun x => less x k) ++ k :: s.filter (fun x => less k x)

/-- Drop the elements equivalent to `k`. -/
def SSet.del (less : K → K → Bool) (k : K) (s : List K) : List K := s.filter (fun x => less k x || less x k)

/-- Add elements one after the other, counting those that were absent. -/
def SSet.addN (less : K → K → Bool) : List K → List K → List K × Nat
  | [], s => (s, 0)
  | k :: ks, s => ((SSet.addN less ks (SSet.add less k s)).1,
      (SSet.addN less ks (SSet.add less k s)).2 + if SSet.mem less k s then 0 else 1)

/-- Remove elements one after the other, counting those that were present. -/
def SSet.delN (less : K → K → Bool) : List K → List K → List K × Nat
  | [], s => (s, 0)
  | k :: ks, s => ((SSet.delN less ks (SSet.del less k s)).1,
      (SSet.delN less ks (SSet.del less k s)).2 + if SSet.mem less k s then 1 else 0)

/-- Operations of a client; the numbers are what the random generator would return, the specification ignores them. -/
inductive SSOp (K : Type) where
  | insert (rnd : Nat) (k : K)
  | insertN (ks : List (Nat × K))
  | remove (k : K)
  | removeN (ks : List K)
  | clear
  | has (k : K)
  | len
  | isEmpty
  | keys
  | lowerBound (k : K)
  | upperBound (k : K)

inductive SSObs (K : Type) where
  | unit
  | flag (b : Bool)
  | num (n : Int)
  | list (l : List K)
deriving DecidableEq

/-- One operation on the specification. -/
def SSet.step (less : K → K → Bool) (s : List K) : SSOp K → SSObs K × List K
  | .insert _ k => (.flag (!SSet.mem less k s), SSet.add less k s)
  | .insertN ks => (.num (SSet.addN less (ks.map (·.2)) s).2, (SSet.addN less (ks.map (·.2)) s).1)
  | .remove k => (.flag (SSet.mem less k s), SSet.del less k s)
  | .removeN ks => (.num (SSet.delN less ks s).2, (SSet.delN less ks s).1)
  | .clear => (.unit, [])
  | .has k => (.flag (SSet.mem less k s), s)
  | .len => (.num s.length, s)
  | .isEmpty => (.flag s.isEmpty, s)
  | .keys => (.list s, s)
  | .lowerBound k => (.list (s.filter (fun x => !less x k)), s)
  | .upperBound k => (.list (s.filter (fun x => less k x)), s)

def SSet.run (less : K → K → Bool) : List K → List (SSOp K) → List (SSObs K) × List K
  | s, [] => ([], s)
  | s, op :: ops => ((SSet.step less s op).1 :: (SSet.run less (SSet.step less s op).2 ops).1,
      (SSet.run less (SSet.step less s op).2 ops).2)

/-- A client runs the loop over the iterator to its end. -/
def SLSet.observeIter (s : SLSet K) (it : SLIter) : Outcome (List K) := it.setCollect s (s.nodes.length + 1)

/-- One client operation on the model. -/
def SLSet.exec (impl : SLImpl K) (s : SLSet K) : SSOp K → Outcome (SLSet K × SSObs K)
  | .insert rnd k => do
    let r ← SLSet.insert impl rnd s k
    return (r.1, .flag r.2)
  | .insertN ks => do
    let r ← SLSet.insertN impl s ks
    return (r.1, .num r.2)
  | .remove k => do
    let r ← SLSet.remove impl s k
    return (r.1, .flag r.2)
  | .removeN ks => do
    let r ← SLSet.removeN impl s ks
    return (r.1, .num r.2)
  | .clear => .ret (SLSet.clear s, .unit)
  | .has k => do
    let b ← SLSet.has impl s k
    return (s, .flag b)
  | .len => .ret (s, .num (SLSet.length s))
  | .isEmpty => .ret (s, .flag (SLSet.isEmpty s))
  | .keys => do
    let l ← SLSet.keys s
    return (s, .list l)
  | .lowerBound k => do
    let it ← SLSet.lowerBoundIter impl s k
    let l ← SLSet.observeIter s it
    return (s, .list l)
  | .upperBound k => do
    let it ← SLSet.upperBoundIter impl s k
    let l ← SLSet.observeIter s it
    return (s, .list l)

def SLSet.run (impl : SLImpl K) : SLSet K → List (SSOp K) → Outcome (SLSet K × List (SSObs K))
  | s, [] => .ret (s, [])
  | s, op :: ops => do
    let r ← SLSet.exec impl s op
    let r2 ← SLSet.run impl r.1 ops
    return (r2.1, r.2 :: r2.2)

/-- `s` is the set that the history `h` builds from the constructor. -/
def SLSet.Built (impl : SLImpl K) (h : List (SSOp K)) (s : SLSet K) : Prop :=
  ∃ obs, SLSet.run impl newSkipListSet h = .ret (s, obs)

end Stl4go
