import Verif.Model.BuiltinSetLive
import Verif.Spec.BuiltinSet
/-!
# Specification of loops over a `BuiltinSet` that changes

The sets are those of `Spec/BuiltinSet.lean`. A loop over a set owes its callback the members that were there at the start, and may in addition pass
it members that were inserted since; a member that is removed before its turn is not passed.
-/
namespace Stl4go
variable {K σ α : Type}

/-- An operation of the model with Go's rules for loops. -/
def BOp.live [GoEq K] (rt : LiveRt K) (extra : Nat) : BOp K → GoM (LiveWorld K) (BObs K)
  | .setOf ks => do let r ← Live.setOf rt ks; return .ref r
  | .isEmpty r => do let b ← Live.isEmpty r; return .flag b
  | .len r => do let n ← Live.len r; return .num n
  | .clear r => do Live.clear rt extra r; return .unit
  | .has r k => do let b ← Live.has r k; return .flag b
  | .insert r k => do let b ← Live.insert rt r k; return .flag b
  | .insertN r ks => do let n ← Live.insertN rt r ks; return .num n
  | .remove r k => do let b ← Live.remove r k; return .flag b
  | .delete r k => do Live.delete r k; return .unit
  | .removeN r ks => do let n ← Live.removeN r ks; return .num n
  | .keys r => do let l ← Live.keys rt extra r; return .keys l
  | .update r o => do Live.update rt extra r o; return .unit
  | .union r o => do let s ← Live.union rt extra r o; return .ref s
  | .inter r o => do let s ← Live.intersection rt extra r o; return .ref s
  | .diff r o => do let s ← Live.difference rt extra r o; return .ref s
  | .disjoint r o => do let b ← Live.isDisjointOf rt extra r o; return .flag b
  | .subset r o => do let b ← Live.isSubsetOf rt extra r o; return .flag b
  | .superset r o => do let b ← Live.isSupersetOf rt extra r o; return .flag b

/-- A call as a caller sees it; after a panic the caller goes on with the sets as they are. -/
def BOp.callLive [GoEq K] (rt : LiveRt K) (extra : Nat) (op : BOp K) (w : LiveWorld K) : BObs K × LiveWorld K :=
  match op.live rt extra w with
  | .ok o w' => (o, w')
  | .panic w' => (.panicked, w')
  | .diverge => (.hung, w)

/-- The results of a history. -/
def LiveWorld.run [GoEq K] (rt : LiveRt K) (extra : Nat) : LiveWorld K → List (BOp K) → List (BObs K)
  | _, [] => []
  | w, op :: ops => (op.callLive rt extra w).1 :: LiveWorld.run rt extra (op.callLive rt extra w).2 ops

/-- The state a history leads to. -/
def LiveWorld.after [GoEq K] (rt : LiveRt K) (extra : Nat) : LiveWorld K → List (BOp K) → LiveWorld K
  | w, [] => w
  | w, op :: ops => LiveWorld.after rt extra (op.callLive rt extra w).2 ops

/-- The sets a history leads to. -/
def BState.after [GoEq K] : BState K → List (BOp K) → BState K
  | st, [] => st
  | st, op :: ops => (st.step op).after ops

/-- No sets yet. -/
def LiveWorld.empty : LiveWorld K := { maps := fun _ => [], next := 0, ids := 0, steps := 0 }

/-- The set a map stands for: what `Has` reports. -/
def LiveWorld.set [GoEq K] (w : LiveWorld K) (r : MRef) : K → Bool := fun k => (w.entries r).any (fun e => GoEq.eq k e.key)

/-- Callbacks: programs over the operations on sets. -/
inductive BProg (K α : Type) where
  | ret (a : α)
  | panic
  | hang
  | call (op : BOp K) (k : BObs K → BProg K α)

/-- Do one after the other. -/
def BProg.bind {β : Type} : BProg K α → (α → BProg K β) → BProg K β
  | .ret a, f => f a
  | .panic, _ => .panic
  | .hang, _ => .hang
  | .call op k, f => .call op (fun o => (k o).bind f)

instance (n : Nat) (r : MRef) : Decidable (RefOk n r) := by
  cases r <;> unfold RefOk <;> infer_instance

instance (n : Nat) (op : BOp K) : Decidable (op.Valid n) := by
  cases op <;> unfold BOp.Valid <;> infer_instance

/-- An operation of a callback. A set that does not exist cannot be used by a Go program; here that counts as a panic. -/
def BOp.liveIn [GoEq K] (rt : LiveRt K) (extra : Nat) (op : BOp K) : GoM (LiveWorld K) (BObs K) := fun w =>
  if op.Valid w.next then op.live rt extra w else .panic w

/-- Run a callback on the model. -/
def BProg.exec [GoEq K] (rt : LiveRt K) (extra : Nat) : BProg K α → GoM (LiveWorld K) α
  | .ret a => pure a
  | .panic => GoM.panic
  | .hang => GoM.diverge
  | .call op k => do
    let o ← op.liveIn rt extra
    (k o).exec rt extra

/-- The sets during a loop: `owed` are the members of the set of the loop that have been members since the start and have not been passed to the
callback, `fresh` the members that have been inserted since the start and have not been passed to the callback since. -/
structure BWalk (K : Type) where
  st : BState K
  owed : K → Bool
  fresh : K → Bool

/-- The start of a loop over the set `r`. -/
def BWalk.start (st : BState K) (r : MRef) : BWalk K := { st := st, owed := st.of r, fresh := fun _ => false }

/-- An operation while a loop over `r` is running. -/
def BWalk.op [GoEq K] (r : MRef) (w : BWalk K) (op : BOp K) : BWalk K :=
  { st := w.st.step op
    owed := fun k => w.owed k && (w.st.step op).of r k
    fresh := fun k => (w.fresh k || !w.st.of r k) && (w.st.step op).of r k }

/-- `k` is passed to the callback. -/
def BWalk.visit [GoEq K] (w : BWalk K) (k : K) : BWalk K :=
  { w with owed := fun x => w.owed x && !GoEq.eq x k, fresh := fun x => w.fresh x && !GoEq.eq x k }

/-- `p.Runs r w res`: during a loop over `r` the callback `p` can behave like this. -/
inductive BProg.Runs [GoEq K] (r : MRef) : BProg K α → BWalk K → Res (BWalk K) α → Prop
  | ret (a : α) (w : BWalk K) : Runs r (.ret a) w (.ok a w)
  | panic (w : BWalk K) : Runs r .panic w (.panic w)
  | hang (w : BWalk K) : Runs r .hang w .diverge
  | call {op : BOp K} {k : BObs K → BProg K α} {w : BWalk K} {o : BObs K} {res : Res (BWalk K) α} :
      op.Valid w.st.next → w.st.Ok op o → o ≠ .panicked → Runs r (k o) (w.op r op) res → Runs r (.call op k) w res
  | callPanics {op : BOp K} {k : BObs K → BProg K α} {w : BWalk K} :
      op.Valid w.st.next → w.st.Ok op .panicked → Runs r (.call op k) w (.panic (w.op r op))
  | noSuchSet {op : BOp K} {k : BObs K → BProg K α} {w : BWalk K} : ¬ op.Valid w.st.next → Runs r (.call op k) w (.panic w)

/-- `BWalk.Loop r cb n t w res`: a loop over `r` can call its callback `n` times and then have ended like this, or be still going on (`none`). It
can end when nothing is owed. -/
inductive BWalk.Loop [GoEq K] (r : MRef) (cb : σ → K → BProg K (σ × Bool)) : Nat → σ → BWalk K → Option (Res (BWalk K) σ) → Prop
  | running (t : σ) (w : BWalk K) : Loop r cb 0 t w none
  | finish {t : σ} {w : BWalk K} : (∀ k, w.owed k = false) → Loop r cb 0 t w (some (.ok t w))
  | stop {t t' : σ} {w w' : BWalk K} {k : K} : (w.owed k || w.fresh k) = true → (cb t k).Runs r (w.visit k) (.ok (t', false) w') →
      Loop r cb 1 t w (some (.ok t' w'))
  | panics {t : σ} {w w' : BWalk K} {k : K} : (w.owed k || w.fresh k) = true → (cb t k).Runs r (w.visit k) (.panic w') →
      Loop r cb 1 t w (some (.panic w'))
  | hangs {t : σ} {w : BWalk K} {k : K} : (w.owed k || w.fresh k) = true → (cb t k).Runs r (w.visit k) .diverge → Loop r cb 1 t w (some .diverge)
  | goOn {n : Nat} {t t' : σ} {w w' : BWalk K} {k : K} {res : Option (Res (BWalk K) σ)} : (w.owed k || w.fresh k) = true →
      (cb t k).Runs r (w.visit k) (.ok (t', true) w') → Loop r cb n t' w' res → Loop r cb (n + 1) t w res

/-- The operation adds members to `r`. -/
def BOp.adds (r : MRef) : BOp K → Bool
  | .insert r' _ | .insertN r' _ | .update r' _ => decide (r' = r)
  | _ => false

/-- The callback does not hang, and uses only such operations. -/
def BProg.Only (Q : BOp K → Prop) : BProg K α → Prop
  | .ret _ | .panic => True
  | .hang => False
  | .call op k => Q op ∧ ∀ o, (k o).Only Q

/-- The callback does not hang. -/
def BProg.Ends (p : BProg K α) : Prop := p.Only (fun _ => True)

/-- The callback does not hang and does not add members to `r`. -/
def BProg.Tame (r : MRef) (p : BProg K α) : Prop := p.Only (fun op => op.adds r = false)

/-- The callback of `ForEach` as one of `ForEachIf`. -/
def BProg.always (cb : σ → K → BProg K σ) : σ → K → BProg K (σ × Bool) := fun t k => (cb t k).bind (fun t => .ret (t, true))

/-- The callback which in addition notes the keys it gets. -/
def BProg.noting (cb : σ → K → BProg K σ) : σ × List K → K → BProg K (σ × List K) := fun t k => (cb t.1 k).bind (fun t' => .ret (t', t.2 ++ [k]))

/-- The callback which panics if the key it gets is not a member of `r`. -/
def BProg.checked (r : MRef) (cb : σ → K → BProg K α) : σ → K → BProg K α := fun t k =>
  .call (.has r k) (fun o => match o with | .flag true => cb t k | _ => .panic)

/-- The callback that removes the keys with a property. -/
def BProg.sieve (r : MRef) (p : K → Bool) : Unit → K → BProg K Unit := fun _ k =>
  if p k then .call (.remove r k) (fun _ => .ret ()) else .ret ()

/-- The sets of the model are these. -/
def LiveWorld.Is [GoEq K] (w : LiveWorld K) (st : BState K) : Prop := ∀ r, w.set r = st.of r

end Stl4go
