import Verif.Model.SListNested
import Verif.Spec.DListNested
/-!
# Specification of loops over single-linked lists inside one another

A loop is an iterator that the client cannot name. The iterators of `LCSpec` with even numbers are those of the client, a loop that runs inside `d`
others is the iterator `2 * d + 1`. `none`: the specification says nothing.
-/
namespace Stl4go
variable {T σ : Type}

/-- An operation of the client. -/
def LCOp.outer : LCOp T → LCOp T
  | .list i op => .list i op
  | .iterate c i => .iterate (2 * c) i
  | .isNotEnd c => .isNotEnd (2 * c)
  | .value c => .value (2 * c)
  | .next c => .next (2 * c)
  | .set c v => .set (2 * c) v

/-- What iterator `c` has ahead of it. -/
def LCSpec.rest (st : LCSpec T) (c : Nat) : List T := (st.curs c).2.rest (st.lists (st.curs c).1)

/-- `for ; it.IsNotEnd(); it.MoveToNext() { if !cb(it.Value()) { break } }`, in at most `fuel` rounds. -/
def LCSpec.eachLoop (it : Nat) (cb : σ → T → LCSpec T → Option (Res (LCSpec T) (σ × Bool))) :
    (fuel : Nat) → σ → LCSpec T → Option (Res (LCSpec T) σ)
  | 0, _, _ => some .diverge
  | fuel + 1, t, st =>
    match st.rest it with
    | [] => some (.ok t st)
    | v :: _ =>
      match cb t v st with
      | some (.ok (t, true) st) =>
        match st.step (.next it) with
        | some (.unit, st) => LCSpec.eachLoop it cb fuel t st
        | _ => some (.panic st)
      | some (.ok (t, false) st) => some (.ok t st)
      | some (.panic st) => some (.panic st)
      | some .diverge => some .diverge
      | none => none

/-- The whole call. -/
def LCSpec.each (it i : Nat) (cb : σ → T → LCSpec T → Option (Res (LCSpec T) (σ × Bool))) (fuel : Nat) (t : σ) (st : LCSpec T) :
    Option (Res (LCSpec T) σ) :=
  LCSpec.eachLoop it cb fuel t (st.put it i (LCur.start (st.lists i)))

/-- Run client code inside `d` loops. -/
def EProg.specL (fuel : Nat) : {α : Type} → EProg (LCOp T) T α → (d : Nat) → LCSpec T → Option (Res (LCSpec T) α)
  | _, .ret a, _, st => some (.ok a st)
  | _, .panic, _, st => some (.panic st)
  | _, .hang, _, _ => some .diverge
  | _, .call op k, d, st =>
    match st.step op.outer with
    | some (.panicked, st) => some (.panic st)
    | some (.hung, _) => some .diverge
    | some (o, st) => (k o).specL fuel d st
    | none => none
  | _, .each i cb t k, d, st =>
    andThen (st.each (2 * d + 1) i (fun t v st => (cb t v).specL fuel (d + 1) st) fuel t) (fun t st => (k t).specL fuel d st)
  | _, .eachPtr c i cb t k, d, st =>
    andThen (st.each (2 * d + 1) i (fun t _ st => (cb t).specL fuel (d + 1) (st.put (2 * c) (st.curs (2 * d + 1)).1 (st.curs (2 * d + 1)).2)) fuel t)
      (fun t st => (k t).specL fuel d st)

/-! ## Kinds of programs -/

/-- Everything but `PushBack` and `Reverse`. -/
def LOp.NoAppend : LOp T → Prop
  | .pushBack _ | .reverse => False
  | _ => True

/-- A call that is settled and does not append to the lists `P`, reverse them or write to their elements. -/
def LCOp.Spares (P : Nat → Prop) : LCOp T → Prop
  | .list j op => P j → op.NoAppend
  | .set _ _ => False
  | _ => True

/-- A call that never panics. -/
def LCOp.Calm : LCOp T → Prop
  | .list _ .popFront | .list _ .front | .list _ .back => False
  | .list _ _ | .iterate _ _ | .isNotEnd _ => True
  | _ => False

/-- The program has no panic of its own. -/
def EProg.NoPanic {Op : Type} : {α : Type} → EProg Op T α → Prop
  | _, .ret _ => True
  | _, .panic => False
  | _, .hang => True
  | _, .call _ k => ∀ o, (k o).NoPanic
  | _, .each _ cb _ k => (∀ t v, (cb t v).NoPanic) ∧ ∀ t, (k t).NoPanic
  | _, .eachPtr _ _ cb _ k => (∀ t, (cb t).NoPanic) ∧ ∀ t, (k t).NoPanic

end Stl4go
