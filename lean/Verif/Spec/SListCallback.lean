import Verif.Model.SListCallback
import Verif.Spec.SListCursor
/-!
# Specification of `SList.ForEach` whose callback uses lists

The loop is an iterator over a list that changes: it stands on an element, runs the callback, moves to what is then the next element. How the
callback's operations move it is `LCur.after`.
-/
namespace Stl4go
variable {T α σ : Type}

/-- The lists, which of them the loop is over, and where it stands. -/
structure LWalk (T : Type) where
  lists : Nat → List T
  own : Nat
  cur : LCur T

/-- What the loop has ahead of it. -/
def LWalk.rest (w : LWalk T) : List T := w.cur.rest (w.lists w.own)

/-- Overwrite the element under the loop, in the list or not any more. -/
def LWalk.write (w : LWalk T) (v : T) : LWalk T :=
  match w.cur.pre, w.cur.pos with
  | _ :: p, _ => { w with cur := { w.cur with pre := v :: p } }
  | [], some k => { w with lists := fun j => if j = w.own then (w.lists j).set k v else w.lists j }
  | [], none => w

/-- An operation on list `i`. -/
def LWalk.op (w : LWalk T) (i : Nat) (op : LOp T) : LWalk T :=
  { w with lists := fun j => if j = i then (LSeq.step (w.lists i) op).2 else w.lists j
           cur := if i = w.own then w.cur.after (w.lists i) op else w.cur }

/-- Run the callback. -/
def LProg.spec : LProg T α → LWalk T → Res (LWalk T) α
  | .ret a, w => .ok a w
  | .panic, w => .panic w
  | .hang, _ => .diverge
  | .call i op k, w =>
    match (LSeq.step (w.lists i) op).1 with
    | .panicked => .panic (w.op i op)
    | o => (k o).spec (w.op i op)
  | .load k, w => match w.rest with
    | v :: _ => (k v).spec w
    | [] => .panic w
  | .store v k, w => k.spec (w.write v)

/-- `ForEachMutableIf`, the general case, in at most `fuel` steps. -/
def LWalk.loop (cb : σ → LProg T (σ × Bool)) : (fuel : Nat) → σ → LWalk T → Res (LWalk T) σ
  | 0, _, _ => .diverge
  | fuel + 1, t, w =>
    match w.rest with
    | [] => .ok t w
    | _ :: _ => match (cb t).spec w with
      | .ok (t, true) w => match w.cur.next (w.lists w.own) with
        | some c => LWalk.loop cb fuel t { w with cur := c }
        | none => .panic w
      | .ok (t, false) w => .ok t w
      | .panic w => .panic w
      | .diverge => .diverge

/-- The whole call on list `i`. -/
def LWalk.run (fuel i : Nat) (cb : σ → LProg T (σ × Bool)) (t : σ) (s : Nat → List T) : Res (LWalk T) σ :=
  LWalk.loop cb fuel t ⟨s, i, LCur.start (s i)⟩

/-- A callback of `ForEachMutable`: it always goes on. -/
def LProg.goOn (cb : σ → LProg T σ) (t : σ) : LProg T (σ × Bool) := (cb t).bind (fun t => .ret (t, true))

/-- A callback that is given the value of the element. -/
def LProg.byValue {β : Type} (cb : σ → T → LProg T β) (t : σ) : LProg T β := .load (cb t)

/-- Push values at the back of list `i`, then go on. -/
def LProg.pushes (i : Nat) : List T → LProg T α → LProg T α
  | [], p => p
  | v :: vs, p => .call i (.pushBack v) (fun _ => LProg.pushes i vs p)

end Stl4go
