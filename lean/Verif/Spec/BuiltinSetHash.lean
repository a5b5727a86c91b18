import Verif.Model.BuiltinSetHash
import Verif.Spec.BuiltinSet
/-!
# Specification of `BuiltinSet` with keys that cannot be hashed

The sets are those of `Spec/BuiltinSet.lean`. An operation that is given a key that cannot be hashed panics when it comes to this key.
-/
namespace Stl4go
variable {K : Type}

/-- The keys an operation is given. -/
def BOp.given : BOp K → List K
  | .setOf ks | .insertN _ ks | .removeN _ ks => ks
  | .has _ k | .insert _ k | .remove _ k | .delete _ k => [k]
  | _ => []

/-- The operation with the keys `ks` instead. -/
def BOp.withKeys (ks : List K) : BOp K → BOp K
  | .setOf _ => .setOf ks
  | .insertN r _ => .insertN r ks
  | .removeN r _ => .removeN r ks
  | op => op

/-- An operation with several keys. -/
def BOp.many : BOp K → Bool
  | .setOf _ | .insertN _ _ | .removeN _ _ => true
  | _ => false

/-- The sets after an operation: those with several keys have treated the keys before the first that cannot be hashed, the others have done nothing. -/
def BState.stepHash [GoEq K] [GoHash K] (st : BState K) (op : BOp K) : BState K :=
  if op.given.all GoHash.ok then st.step op
  else if op.many then st.step (op.withKeys (op.given.takeWhile GoHash.ok))
  else st

/-- The right result of an operation. -/
def BState.OkHash [GoEq K] [GoHash K] (st : BState K) (op : BOp K) (o : BObs K) : Prop :=
  if op.given.all GoHash.ok then st.Ok op o else o = .panicked

/-- The results of a history are right, one after the other. -/
def BState.MatchesHash [GoEq K] [GoHash K] : BState K → List (BOp K) → List (BObs K) → Prop
  | _, [], os => os = []
  | st, op :: ops, os => ∃ o os', os = o :: os' ∧ st.OkHash op o ∧ (st.stepHash op).MatchesHash ops os'

/-- All operations of a history use nil or sets that exist by then. -/
def BState.LegalHash [GoEq K] [GoHash K] : BState K → List (BOp K) → Prop
  | _, [] => True
  | st, op :: ops => op.Valid st.next ∧ (st.stepHash op).LegalHash ops

/-- An operation of the model. -/
def BOp.hashed [GoEq K] [GoHash K] (rt : MapRt K) : BOp K → GoM (MWorld K) (BObs K)
  | .setOf ks => do let r ← Hashed.setOf rt ks; return .ref r
  | .isEmpty r => do let b ← bsIsEmpty r; return .flag b
  | .len r => do let n ← bsLen r; return .num n
  | .clear r => do Hashed.clear rt r; return .unit
  | .has r k => do let b ← Hashed.has r k; return .flag b
  | .insert r k => do let b ← Hashed.insert rt r k; return .flag b
  | .insertN r ks => do let n ← Hashed.insertN rt r ks; return .num n
  | .remove r k => do let b ← Hashed.remove r k; return .flag b
  | .delete r k => do Hashed.delete r k; return .unit
  | .removeN r ks => do let n ← Hashed.removeN r ks; return .num n
  | .keys r => do let l ← bsKeys rt r; return .keys l
  | .update r o => do Hashed.update rt r o; return .unit
  | .union r o => do let s ← Hashed.union rt r o; return .ref s
  | .inter r o => do let s ← Hashed.intersection rt r o; return .ref s
  | .diff r o => do let s ← Hashed.difference rt r o; return .ref s
  | .disjoint r o => do let b ← Hashed.isDisjointOf rt r o; return .flag b
  | .subset r o => do let b ← Hashed.isSubsetOf rt r o; return .flag b
  | .superset r o => do let b ← Hashed.isSupersetOf rt r o; return .flag b

/-- A call as a caller sees it; after a panic the caller goes on with the sets as they are. -/
def BOp.callHashed [GoEq K] [GoHash K] (rt : MapRt K) (op : BOp K) (w : MWorld K) : BObs K × MWorld K :=
  match op.hashed rt w with
  | .ok o w' => (o, w')
  | .panic w' => (.panicked, w')
  | .diverge => (.hung, w)

/-- The results of a history. -/
def MWorld.runHashed [GoEq K] [GoHash K] (rt : MapRt K) : MWorld K → List (BOp K) → List (BObs K)
  | _, [] => []
  | w, op :: ops => (op.callHashed rt w).1 :: MWorld.runHashed rt (op.callHashed rt w).2 ops

/-- The state a history leads to. -/
def MWorld.afterHashed [GoEq K] [GoHash K] (rt : MapRt K) : MWorld K → List (BOp K) → MWorld K
  | w, [] => w
  | w, op :: ops => MWorld.afterHashed rt (op.callHashed rt w).2 ops

end Stl4go
