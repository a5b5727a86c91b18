import Verif.Model.DListCallback
import Verif.Spec.DListCursor
/-!
# Specification of `ForEach` whose callback uses the list

The loop is an iterator over a list that changes: it stands on an element, runs the callback, moves to what is then the next element. How the
callback's operations move it is `DCur.after`.
-/
namespace Stl4go
variable {T α σ : Type}

/-- The elements of the list and where the loop stands. -/
structure DWalk (T : Type) where
  items : List T
  cur : DCur T

/-- The callback does not assign a new list to the list variable. -/
def DProg.Keeps : DProg T α → Prop
  | .call op k => (∀ vs, op ≠ .make vs) ∧ ∀ o, (k o).Keeps
  | .load k => ∀ v, (k v).Keeps
  | .store _ k => k.Keeps
  | _ => True

/-- The element under the loop, in the list or not any more; none at the end and at nil. -/
def DWalk.elem (w : DWalk T) : Option T :=
  match w.cur with
  | .at k => w.items[k]?
  | .left v _ => some v
  | .popped v => some v
  | _ => none

/-- Overwrite the element under the loop. -/
def DWalk.write (w : DWalk T) (v : T) : DWalk T :=
  match w.cur with
  | .at k => { w with items := w.items.set k v }
  | .left _ rest => { w with cur := .left v rest }
  | .popped _ => { w with cur := .popped v }
  | _ => w

/-- Run the callback. -/
def DProg.spec [GoZero T] : DProg T α → DWalk T → Res (DWalk T) α
  | .ret a, w => .ok a w
  | .panic, w => .panic w
  | .hang, _ => .diverge
  | .call op k, w =>
    let w' : DWalk T := ⟨(Deque.step w.items op).2, w.cur.after w.items op⟩
    match (Deque.step w.items op).1 with
    | .panicked => .panic w'
    | o => (k o).spec w'
  | .load k, w => match w.elem with
    | some v => (k v).spec w
    | none => .panic w
  | .store v k, w => k.spec (w.write v)

/-- Move on to the next element. -/
def DWalk.next (w : DWalk T) : DWalk T :=
  match w.cur with
  | .at k => { w with cur := .at (k + 1) }
  | .left _ [] => { w with cur := .at w.items.length }
  | .left _ (v :: rest) => { w with cur := .left v rest }
  | .popped _ => { w with cur := .nil }
  | _ => w

/-- Whether the loop is at the end. -/
def DWalk.atEnd (w : DWalk T) : Bool :=
  match w.cur with
  | .at k => decide (w.items.length ≤ k)
  | _ => false

/-- `ForEachMutableIf`, the general case, in at most `fuel` steps. After an element that was popped comes nil, and the loop panics. -/
def DWalk.loop [GoZero T] (cb : σ → DProg T (σ × Bool)) : (fuel : Nat) → σ → DWalk T → Res (DWalk T) σ
  | 0, _, _ => .diverge
  | fuel + 1, t, w =>
    if w.atEnd then .ok t w
    else match w.cur with
      | .nil => .panic w
      | _ => match (cb t).spec w with
        | .ok (t, true) w => DWalk.loop cb fuel t w.next
        | .ok (t, false) w => .ok t w
        | .panic w => .panic w
        | .diverge => .diverge

/-- The whole call: nothing happens on an empty list, otherwise the loop starts at the first element. -/
def DWalk.run [GoZero T] (fuel : Nat) (cb : σ → DProg T (σ × Bool)) (t : σ) (s : List T) : Res (DWalk T) σ :=
  match s with
  | [] => .ok t ⟨[], .at 0⟩
  | v :: s => DWalk.loop cb fuel t ⟨v :: s, .at 0⟩

/-- A callback of `ForEachMutable`: it always goes on. -/
def goOn (cb : σ → DProg T σ) (t : σ) : DProg T (σ × Bool) := (cb t).bind (fun t => .ret (t, true))

/-- A callback that is given the value of the element. -/
def byValue {β : Type} (cb : σ → T → DProg T β) (t : σ) : DProg T β := .load (cb t)

/-! ## Callbacks that push -/

/-- The work done when everything in the queue is handled in turn and handling `v` appends `g v`. -/
inductive Worklist (g : T → List T) : List T → List T → Prop
  | nil : Worklist g [] []
  | cons {v : T} {q vis : List T} (h : Worklist g (q ++ g v) vis) : Worklist g (v :: q) (v :: vis)

/-- Push values at the back, then go on. -/
def pushes : List T → DProg T α → DProg T α
  | [], p => p
  | v :: vs, p => .call (.pushBack v) (fun _ => pushes vs p)

end Stl4go
