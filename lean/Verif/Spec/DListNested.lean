import Verif.Model.DListNested
/-!
# Specification of loops over lists inside one another

A loop is an iterator that the client cannot name. The iterators of `CSpec` with even numbers are those of the client, a loop that runs inside `d`
others is the iterator `2 * d + 1`. All operations move them as they move every iterator. `none`: the specification says nothing.
-/
namespace Stl4go
variable {T σ : Type}

/-- An operation of the client. -/
def COp.outer : COp T → COp T
  | .list i op => .list i op
  | .iterate c i => .iterate (2 * c) i
  | .isNotEnd c => .isNotEnd (2 * c)
  | .value c => .value (2 * c)
  | .next c => .next (2 * c)
  | .set c v => .set (2 * c) v

/-- `for ; it.IsNotEnd(); it.MoveToNext() { if !cb(it.Value()) { break } }`, in at most `fuel` rounds. -/
def CSpec.eachLoop [GoZero T] (it : Nat) (cb : σ → T → CSpec T → Option (Res (CSpec T) (σ × Bool))) :
    (fuel : Nat) → σ → CSpec T → Option (Res (CSpec T) σ)
  | 0, _, _ => some .diverge
  | fuel + 1, t, st =>
    match st.step (.isNotEnd it) with
    | some (.flag false, _) => some (.ok t st)
    | some (.flag true, _) =>
      match st.step (.value it) with
      | some (.val v, _) =>
        match cb t v st with
        | some (.ok (t, true) st) =>
          match st.step (.next it) with
          | some (.unit, st) => CSpec.eachLoop it cb fuel t st
          | some (.panicked, st) => some (.panic st)
          | _ => none
        | some (.ok (t, false) st) => some (.ok t st)
        | some (.panic st) => some (.panic st)
        | some .diverge => some .diverge
        | none => none
      | some (.panicked, _) => some (.panic st)
      | _ => none
    | _ => none

/-- The whole call: nothing happens on an empty list. -/
def CSpec.each [GoZero T] (it i : Nat) (cb : σ → T → CSpec T → Option (Res (CSpec T) (σ × Bool))) (fuel : Nat) (t : σ) (st : CSpec T) :
    Option (Res (CSpec T) σ) :=
  if (st.lists i).items = [] then some (.ok t st)
  else match st.step (.iterate it i) with
    | some (_, st) => CSpec.eachLoop it cb fuel t st
    | none => none

/-- Go on after what returned normally. -/
def andThen {S α β : Type} (r : Option (Res S α)) (f : α → S → Option (Res S β)) : Option (Res S β) :=
  match r with
  | some (.ok a st) => f a st
  | some (.panic st) => some (.panic st)
  | some .diverge => some .diverge
  | none => none

/-- Run client code inside `d` loops. -/
def EProg.spec [GoZero T] (fuel : Nat) : {α : Type} → EProg (COp T) T α → (d : Nat) → CSpec T → Option (Res (CSpec T) α)
  | _, .ret a, _, st => some (.ok a st)
  | _, .panic, _, st => some (.panic st)
  | _, .hang, _, _ => some .diverge
  | _, .call op k, d, st =>
    match st.step op.outer with
    | some (.panicked, st) => some (.panic st)
    | some (.hung, _) => some .diverge
    | some (o, st) => (k o).spec fuel d st
    | none => none
  | _, .each i cb t k, d, st =>
    andThen (st.each (2 * d + 1) i (fun t v st => (cb t v).spec fuel (d + 1) st) fuel t) (fun t st => (k t).spec fuel d st)
  | _, .eachPtr c i cb t k, d, st =>
    andThen (st.each (2 * d + 1) i (fun t _ st => (cb t).spec fuel (d + 1) (st.put (2 * c) i (st.curs (2 * d + 1)).2)) fuel t)
      (fun t st => (k t).spec fuel d st)

/-! ## Programs that leave some lists as they are -/

/-- All calls that the program and its callbacks make are in `P`. -/
def EProg.Calls {Op : Type} (P : Op → Prop) : {α : Type} → EProg Op T α → Prop
  | _, .ret _ => True
  | _, .panic => True
  | _, .hang => True
  | _, .call op k => P op ∧ ∀ o, (k o).Calls P
  | _, .each _ cb _ k => (∀ t v, (cb t v).Calls P) ∧ ∀ t, (k t).Calls P
  | _, .eachPtr _ _ cb _ k => (∀ t, (cb t).Calls P) ∧ ∀ t, (k t).Calls P

/-- The operations that only look at the list. -/
def DOp.Reading : DOp T → Prop
  | .front | .back | .len | .isEmpty | .values => True
  | _ => False

/-- A method call of a list that is none of `P`, or that leaves the list as it is; no list variable is assigned a new list. -/
def COp.Spares (P : Nat → Prop) : COp T → Prop
  | .list j op => (∀ vs, op ≠ .make vs) ∧ (P j → op.Reading)
  | _ => False

/-- `for _, v := range vs { if !cb(v) { break } }` -/
def visitM {S : Type} (cb : σ → T → GoM S (σ × Bool)) : List T → σ → GoM S σ
  | [], t => pure t
  | v :: vs, t => do
    let r ← cb t v
    if r.2 = false then return r.1 else visitM cb vs r.1

end Stl4go
