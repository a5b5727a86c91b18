import Verif.Model.SkipListCallback
/-!
# Specification of `SkipList.ForEach` whose callback uses the list

The loop is one more iterator over the map that changes: it is on an entry, runs the callback, and moves to what is then the next entry. How
the callback's operations affect it is `SCur.after`.
-/
namespace Stl4go
variable {K V α σ : Type}

/-- The map with its iterators and pointers, and the place of the loop. -/
structure SWalk (K V : Type) where
  spec : SCSpec K V
  cur : SCur K

/-- The entry the loop is on. -/
def SWalk.entry (less : K → K → Bool) (w : SWalk K V) : Option (K × V) := w.cur.place.bind (w.spec.entry less)

/-- An operation of the callback. -/
def SWalk.op (less : K → K → Bool) (w : SWalk K V) (op : SCOp K V) : SWalk K V :=
  { spec := (w.spec.step less op).2
    cur := match op with
      | .map _ op => w.cur.after less w.spec.map w.spec.removed.length op
      | _ => w.cur }

/-- Run the callback. -/
def SProg.spec (less : K → K → Bool) : SProg K V α → SWalk K V → Res (SWalk K V) α
  | .ret a, w => .ok a w
  | .panic, w => .panic w
  | .hang, _ => .diverge
  | .call op k, w =>
    match (w.spec.step less op).1 with
    | .of .panicked => .panic (w.op less op)
    | o => (k o).spec less (w.op less op)
  | .load k, w => match w.entry less with
    | some e => (k e.2).spec less w
    | none => .panic w
  | .store v k, w => match w.cur.place with
    | some d => k.spec less { w with spec := w.spec.assign less v d }
    | none => .panic w
  | .save x k, w => k.spec less { w with spec := w.spec.point x w.cur.place }

/-- `ForEachMutableIf`, the general case, in at most `fuel` steps. -/
def SWalk.loop (less : K → K → Bool) (cb : σ → K → SProg K V (σ × Bool)) : (fuel : Nat) → σ → SWalk K V → Res (SWalk K V) σ
  | 0, _, _ => .diverge
  | fuel + 1, t, w =>
    match w.entry less with
    | none => .ok t w
    | some e => match (cb t e.1).spec less w with
      | .ok (t, true) w => match w.cur.next less w.spec.map with
        | some c => SWalk.loop less cb fuel t { w with cur := c }
        | none => .panic w
      | .ok (t, false) w => .ok t w
      | .panic w => .panic w
      | .diverge => .diverge

/-- The whole call. -/
def SWalk.run (less : K → K → Bool) (fuel : Nat) (cb : σ → K → SProg K V (σ × Bool)) (t : σ) (s : SCSpec K V) : Res (SWalk K V) σ :=
  SWalk.loop less cb fuel t ⟨s, { start := s.map.head?.map (·.1) }⟩

/-- A callback of `ForEachMutable`: it always goes on. -/
def SProg.goOn (cb : σ → K → SProg K V σ) (t : σ) (k : K) : SProg K V (σ × Bool) := (cb t k).bind (fun t => .ret (t, true))

/-- A callback that is given the value of the entry. -/
def SProg.byValue {β : Type} (cb : σ → K → V → SProg K V β) (t : σ) (k : K) : SProg K V β := .load (cb t k)

/-- The same callback, which also notes the keys it is called with. -/
def SProg.noting (cb : σ → K → SProg K V (σ × Bool)) (t : σ × List K) (k : K) : SProg K V ((σ × List K) × Bool) :=
  (cb t.1 k).bind (fun r => .ret ((r.1, t.2 ++ [k]), r.2))

/-- The call panics in no state. -/
def SCOp.total : SCOp K V → Bool
  | .map _ _ | .iterate _ | .lowerBound _ _ | .upperBound _ _ | .findRange _ _ _ | .isNotEnd _ | .find _ _ => true
  | _ => false

/-- The program only calls methods that `ok` allows; it may panic or loop forever by itself only if that is said. -/
def SProg.Within (panics hangs : Bool) (ok : SCOp K V → Bool) : SProg K V α → Prop
  | .ret _ => True
  | .panic => panics = true
  | .hang => hangs = true
  | .call op k => ok op = true ∧ ∀ o, (k o).Within panics hangs ok
  | .load k => ∀ v, (k v).Within panics hangs ok
  | .store _ k => k.Within panics hangs ok
  | .save _ k => k.Within panics hangs ok

end Stl4go
