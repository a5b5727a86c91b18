import Verif.Model.BuiltinSet
/-!
# Specification of `BuiltinSet`: mathematical sets

A set is a membership function. There are any number of sets, known by their numbers; `none` is the nil set.
-/
namespace Stl4go
variable {K : Type}

/-- A runtime visits every key of a map once. -/
def MapRt.Fair (rt : MapRt K) : Prop := ∀ n l, (rt.order n l).Perm l

/-- `l` lists the members of the set, each once. -/
def Lists [GoEq K] (S : K → Bool) (l : List K) : Prop :=
  l.Pairwise (fun x y => GoEq.eq x y = false) ∧ ∀ k, S k = true ↔ ∃ e ∈ l, GoEq.eq k e = true

/-- The set has `n` members. -/
def HasSize [GoEq K] (S : K → Bool) (n : Int) : Prop := ∃ l, Lists S l ∧ (l.length : Int) = n

/-- The sets that exist. -/
structure BState (K : Type) where
  mem : Nat → K → Bool
  next : Nat

/-- The members of a set, none for nil. -/
def BState.of (st : BState K) : MRef → K → Bool
  | none => fun _ => false
  | some i => st.mem i

/-- Change the members of set `r`; the nil set cannot be changed. -/
def BState.change (st : BState K) (r : MRef) (S : K → Bool) : BState K :=
  match r with
  | none => st
  | some i => { st with mem := fun j => if j = i then S else st.mem j }

/-- A new set. -/
def BState.new (st : BState K) (S : K → Bool) : BState K := { mem := fun j => if j = st.next then S else st.mem j, next := st.next + 1 }

/-- The operations. -/
inductive BOp (K : Type) where
  | setOf (ks : List K)
  | isEmpty (r : MRef)
  | len (r : MRef)
  | clear (r : MRef)
  | has (r : MRef) (k : K)
  | insert (r : MRef) (k : K)
  | insertN (r : MRef) (ks : List K)
  | remove (r : MRef) (k : K)
  | delete (r : MRef) (k : K)
  | removeN (r : MRef) (ks : List K)
  | keys (r : MRef)
  | update (r o : MRef)
  | union (r o : MRef)
  | inter (r o : MRef)
  | diff (r o : MRef)
  | disjoint (r o : MRef)
  | subset (r o : MRef)
  | superset (r o : MRef)

/-- What a caller sees. -/
inductive BObs (K : Type) where
  | unit
  | flag (b : Bool)
  | num (n : Int)
  | keys (l : List K)
  | ref (r : MRef)
  | panicked
  | hung
deriving DecidableEq

/-- The set variable holds nil or an existing set. -/
def RefOk (n : Nat) : MRef → Prop
  | none => True
  | some i => i < n

/-- The operation uses nil or existing sets. -/
def BOp.Valid (n : Nat) : BOp K → Prop
  | .setOf _ => True
  | .isEmpty r | .len r | .clear r | .has r _ | .insert r _ | .insertN r _ | .remove r _ | .delete r _ | .removeN r _ | .keys r => RefOk n r
  | .update r o | .union r o | .inter r o | .diff r o | .disjoint r o | .subset r o | .superset r o => RefOk n r ∧ RefOk n o

/-- The sets after an operation. -/
def BState.step [GoEq K] (st : BState K) : BOp K → BState K
  | .setOf ks => st.new (fun x => ks.any (fun k => GoEq.eq x k))
  | .clear r => st.change r (fun _ => false)
  | .insert r k => st.change r (fun x => st.of r x || GoEq.eq x k)
  | .insertN r ks => st.change r (fun x => st.of r x || ks.any (fun k => GoEq.eq x k))
  | .remove r k | .delete r k => st.change r (fun x => st.of r x && !GoEq.eq x k)
  | .removeN r ks => st.change r (fun x => st.of r x && !ks.any (fun k => GoEq.eq x k))
  | .update r o => st.change r (fun x => st.of r x || st.of o x)
  | .union r o => st.new (fun x => st.of r x || st.of o x)
  | .inter r o => st.new (fun x => st.of r x && st.of o x)
  | .diff r o => st.new (fun x => st.of r x && !st.of o x)
  | .isEmpty _ | .len _ | .has _ _ | .keys _ | .disjoint _ _ | .subset _ _ | .superset _ _ => st

/-- The right result of an operation. -/
def BState.Ok [GoEq K] (st : BState K) (op : BOp K) (o : BObs K) : Prop :=
  match op with
  | .setOf _ | .union _ _ | .inter _ _ | .diff _ _ => o = .ref (some st.next)
  | .isEmpty r => ∃ b, o = .flag b ∧ (b = true ↔ ∀ k, st.of r k = false)
  | .len r => ∃ n, o = .num n ∧ HasSize (st.of r) n
  | .clear _ | .delete _ _ => o = .unit
  | .has r k => o = .flag (st.of r k)
  | .insert none _ => o = .panicked
  | .insert r k => o = .flag (!st.of r k)
  | .insertN none ks => o = if ks.length = 0 then .num 0 else .panicked
  | .insertN r _ => ∃ n n', HasSize (st.of r) n ∧ HasSize ((st.step op).of r) n' ∧ o = .num (n' - n)
  | .remove r k => o = .flag (st.of r k)
  | .removeN r _ => ∃ n n', HasSize (st.of r) n ∧ HasSize ((st.step op).of r) n' ∧ o = .num (n - n')
  | .keys r => ∃ l, o = .keys l ∧ Lists (st.of r) l
  | .update none s => ((∀ k, st.of s k = false) → o = .unit) ∧ ((∃ k, st.of s k = true) → o = .panicked)
  | .update _ _ => o = .unit
  | .disjoint r s => ∃ b, o = .flag b ∧ (b = true ↔ ∀ k, ¬ (st.of r k = true ∧ st.of s k = true))
  | .subset r s => ∃ b, o = .flag b ∧ (b = true ↔ ∀ k, st.of r k = true → st.of s k = true)
  | .superset r s => ∃ b, o = .flag b ∧ (b = true ↔ ∀ k, st.of s k = true → st.of r k = true)

/-- The results of a history are right, one after the other. -/
def BState.Matches [GoEq K] : BState K → List (BOp K) → List (BObs K) → Prop
  | _, [], os => os = []
  | st, op :: ops, os => ∃ o os', os = o :: os' ∧ st.Ok op o ∧ (st.step op).Matches ops os'

/-- All operations of a history use nil or sets that exist by then. -/
def BState.Legal [GoEq K] : BState K → List (BOp K) → Prop
  | _, [] => True
  | st, op :: ops => op.Valid st.next ∧ (st.step op).Legal ops

/-- An operation of the model. -/
def BOp.exec [GoEq K] (rt : MapRt K) : BOp K → GoM (MWorld K) (BObs K)
  | .setOf ks => do let r ← bsSetOf rt ks; return .ref r
  | .isEmpty r => do let b ← bsIsEmpty r; return .flag b
  | .len r => do let n ← bsLen r; return .num n
  | .clear r => do bsClear rt r; return .unit
  | .has r k => do let b ← bsHas r k; return .flag b
  | .insert r k => do let b ← bsInsert rt r k; return .flag b
  | .insertN r ks => do let n ← bsInsertN rt r ks; return .num n
  | .remove r k => do let b ← bsRemove r k; return .flag b
  | .delete r k => do bsDelete r k; return .unit
  | .removeN r ks => do let n ← bsRemoveN r ks; return .num n
  | .keys r => do let l ← bsKeys rt r; return .keys l
  | .update r o => do bsUpdate rt r o; return .unit
  | .union r o => do let s ← bsUnion rt r o; return .ref s
  | .inter r o => do let s ← bsIntersection rt r o; return .ref s
  | .diff r o => do let s ← bsDifference rt r o; return .ref s
  | .disjoint r o => do let b ← bsIsDisjointOf rt r o; return .flag b
  | .subset r o => do let b ← bsIsSubsetOf rt r o; return .flag b
  | .superset r o => do let b ← bsIsSupersetOf rt r o; return .flag b

/-- A call as a caller sees it; after a panic the caller goes on with the sets as they are. -/
def BOp.call [GoEq K] (rt : MapRt K) (op : BOp K) (w : MWorld K) : BObs K × MWorld K :=
  match op.exec rt w with
  | .ok o w' => (o, w')
  | .panic w' => (.panicked, w')
  | .diverge => (.hung, w)

/-- The results of a history. -/
def MWorld.run [GoEq K] (rt : MapRt K) : MWorld K → List (BOp K) → List (BObs K)
  | _, [] => []
  | w, op :: ops => (op.call rt w).1 :: MWorld.run rt (op.call rt w).2 ops

/-- The state a history leads to. -/
def MWorld.after [GoEq K] (rt : MapRt K) : MWorld K → List (BOp K) → MWorld K
  | w, [] => w
  | w, op :: ops => MWorld.after rt (op.call rt w).2 ops

/-- The set a map stands for: what `Has` reports. -/
def MWorld.set [GoEq K] (w : MWorld K) (r : MRef) : K → Bool := fun k => (w.keysOf r).any (fun e => GoEq.eq k e)

/-- No map has equal keys. -/
def MWorld.Proper [GoEq K] (w : MWorld K) : Prop := ∀ i, (w.maps i).Pairwise (fun x y => GoEq.eq x y = false)

/-- No sets yet. -/
def MWorld.empty : MWorld K := { maps := fun _ => [], next := 0, loops := 0 }
/-- No sets yet. -/
def BState.empty : BState K := { mem := fun _ _ => false, next := 0 }

end Stl4go
