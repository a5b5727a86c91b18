import Verif.Spec.BuiltinSetLive
/-!
# Specification of loops over `BuiltinSet`s inside one another

As in `Spec/BuiltinSetLive.lean`, but a callback may itself call `ForEachIf`, on any set, with a callback that may do so again. Every loop that is running owes its callback the
members of its set that were there when it started.
-/
namespace Stl4go
variable {K σ : Type}

/-- Programs over sets, with loops. The callback of a loop has a state of its own type. -/
inductive NProg (K : Type) : Type → Type 1 where
  | ret {α : Type} (a : α) : NProg K α
  | panic {α : Type} : NProg K α
  | hang {α : Type} : NProg K α
  | call {α : Type} (op : BOp K) (k : BObs K → NProg K α) : NProg K α
  | each {α ρ : Type} (r : MRef) (cb : ρ → K → NProg K (ρ × Bool)) (t : ρ) (k : ρ → NProg K α) : NProg K α

/-- Run a program on the model. A set that does not exist cannot be used by a Go program; here that counts as a panic. -/
def NProg.exec [GoEq K] (rt : LiveRt K) (extra : Nat) : {α : Type} → NProg K α → GoM (LiveWorld K) α
  | _, .ret a => pure a
  | _, .panic => GoM.panic
  | _, .hang => GoM.diverge
  | _, .call op k => do
    let o ← op.liveIn rt extra
    (k o).exec rt extra
  | _, .each r cb t k => fun w =>
    if RefOk w.next r then (do let t' ← Live.forEachIf rt extra r (fun t x => (cb t x).exec rt extra) t; (k t').exec rt extra : GoM (LiveWorld K) _) w else .panic w

/-- A running loop over `r`: `owed` are the members of `r` that have been members since the start and have not been passed to the callback, `fresh` the members that have been
inserted since the start and have not been passed to the callback since. -/
structure NFrame (K : Type) where
  r : MRef
  owed : K → Bool
  fresh : K → Bool

/-- The sets and the loops that are running, the innermost first. -/
structure NState (K : Type) where
  st : BState K
  loops : List (NFrame K)

/-- An operation concerns every loop that is running. -/
def NFrame.op [GoEq K] (st : BState K) (op : BOp K) (f : NFrame K) : NFrame K :=
  { f with
    owed := fun k => f.owed k && (st.step op).of f.r k
    fresh := fun k => (f.fresh k || !st.of f.r k) && (st.step op).of f.r k }

/-- An operation. -/
def NState.op [GoEq K] (v : NState K) (op : BOp K) : NState K := { st := v.st.step op, loops := v.loops.map (NFrame.op v.st op) }

/-- A loop over `r` starts. -/
def NState.enter (v : NState K) (r : MRef) : NState K := { v with loops := ⟨r, v.st.of r, fun _ => false⟩ :: v.loops }

/-- The innermost loop has ended. -/
def NState.leave (v : NState K) : NState K := { v with loops := v.loops.tail }

/-- `k` is passed to the callback of the innermost loop. -/
def NState.visit [GoEq K] (v : NState K) (k : K) : NState K :=
  { v with loops := match v.loops with
      | [] => []
      | f :: fs => { f with owed := fun x => f.owed x && !GoEq.eq x k, fresh := fun x => f.fresh x && !GoEq.eq x k } :: fs }

/-- The innermost loop may pass `k` to its callback. -/
def NState.May (v : NState K) (k : K) : Prop := ∃ f fs, v.loops = f :: fs ∧ (f.owed k || f.fresh k) = true

/-- The innermost loop may end: it owes nothing. -/
def NState.MayEnd (v : NState K) : Prop := ∃ f fs, v.loops = f :: fs ∧ ∀ k, f.owed k = false

/-- `NLoop R n t v res`: the innermost loop, whose callback can behave like `R`, can call it `n` times and then have ended like this, or be still going on (`none`). -/
inductive NLoop [GoEq K] (R : σ → K → NState K → Res (NState K) (σ × Bool) → Prop) : Nat → σ → NState K → Option (Res (NState K) σ) → Prop
  | running (t : σ) (v : NState K) : NLoop R 0 t v none
  | finish {t : σ} {v : NState K} : v.MayEnd → NLoop R 0 t v (some (.ok t v))
  | stop {t t' : σ} {v v' : NState K} {k : K} : v.May k → R t k (v.visit k) (.ok (t', false) v') → NLoop R 1 t v (some (.ok t' v'))
  | panics {t : σ} {v v' : NState K} {k : K} : v.May k → R t k (v.visit k) (.panic v') → NLoop R 1 t v (some (.panic v'))
  | hangs {t : σ} {v : NState K} {k : K} : v.May k → R t k (v.visit k) .diverge → NLoop R 1 t v (some .diverge)
  | goOn {n : Nat} {t t' : σ} {v v' : NState K} {k : K} {res : Option (Res (NState K) σ)} : v.May k → R t k (v.visit k) (.ok (t', true) v') →
      NLoop R n t' v' res → NLoop R (n + 1) t v res

/-- `p.Runs extra v res`: the program `p` can behave like this. A loop that has called its callback more than `extra` times for members inserted since it started counts as
endless. -/
def NProg.Runs [GoEq K] (extra : Nat) : {α : Type} → NProg K α → NState K → Res (NState K) α → Prop
  | _, .ret a, v, res => res = .ok a v
  | _, .panic, v, res => res = .panic v
  | _, .hang, _, res => res = .diverge
  | _, .call op k, v, res =>
    (op.Valid v.st.next ∧ ∃ o, v.st.Ok op o ∧ ((o ≠ .panicked ∧ (k o).Runs extra (v.op op) res) ∨ (o = .panicked ∧ res = .panic (v.op op)))) ∨
    (¬ op.Valid v.st.next ∧ res = .panic v)
  | _, .each r cb t k, v, res =>
    (RefOk v.st.next r ∧ ∃ n end_, NLoop (fun t x => (cb t x).Runs extra) n t (v.enter r) end_ ∧
      match end_ with
      | some (.ok t' v') => (k t').Runs extra v'.leave res
      | some (.panic v') => res = .panic v'
      | some .diverge => res = .diverge
      | none => res = .diverge ∧ ∃ m : Nat, HasSize (v.st.of r) m ∧ n = m + extra + 1) ∨
    (¬ RefOk v.st.next r ∧ res = .panic v)

/-- The program does not hang, and adds no members to the sets in `rs` or to a set while it runs a loop over that. -/
def NProg.Tame : {α : Type} → List MRef → NProg K α → Prop
  | _, _, .ret _ => True
  | _, _, .panic => True
  | _, _, .hang => False
  | _, rs, .call op k => (∀ r ∈ rs, op.adds r = false) ∧ ∀ o, (k o).Tame rs
  | _, rs, .each r cb _ k => (∀ t x, (cb t x).Tame (r :: rs)) ∧ ∀ t, (k t).Tame rs

/-- A callback without loops as one that might have some. -/
def BProg.nested {α : Type} : BProg K α → NProg K α
  | .ret a => .ret a
  | .panic => .panic
  | .hang => .hang
  | .call op k => .call op (fun o => (k o).nested)

/-- `for x in r { for y in r' { note (x, y) } }`. -/
def NProg.pairs (r r' : MRef) : NProg K (List (K × K)) :=
  .each r (fun l x => .each r' (fun l y => .ret (l ++ [(x, y)], true)) l (fun l => .ret (l, true))) [] .ret

end Stl4go
