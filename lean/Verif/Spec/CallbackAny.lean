import Verif.Spec.CallbackSearch
/-!
# Specification vocabulary for callbacks that may change the elements

Here the calls are about indexes: `callsUntil stop (withElem a cb) (List.range n) s` calls `cb` for index 0, 1, 2, ... with the element that is
there at that time. The state is the whole memory and everything else.
-/
namespace Stl4go
variable {T α β σ ρ : Type}

/-- A function that returns `a` if the calls came to an end, panics if one panicked and hangs if one hung. -/
def CallEnd.yields (e : CallEnd σ) (a : β) : Res σ β :=
  match e with
  | .done s => .ok a s
  | .panicked s => .panic s
  | .hung => .diverge

/-- Call `f` for index `i` and go on with what `k` makes of the answer and the state. -/
def callThen (f : Nat → GoM σ α) (k : α → Nat → σ → σ) (i : Nat) : GoM σ α := fun s =>
  match f i s with
  | .ok r s' => .ok r (k r i s')
  | .panic s' => .panic s'
  | .diverge => .diverge

/-- `a[i] = x`, for an index that is there. -/
def CS.store (a : Sl) (i : Nat) (x : T) (s : CS T ρ) : CS T ρ := { s with mem := s.mem.write (a.off + i) [x] }

/-- Removal, index by index: the element is taken before the call, and if the answer is false stored at the next free place `j`. -/
def removeStep (a : Sl) (cond : T → GoM (CS T ρ) Bool) (i : Nat) : GoM (CS T ρ × Nat) Bool := fun s =>
  match withElem a cond i s.1 with
  | .ok true s' => .ok true (s', s.2)
  | .ok false s' => .ok false (CS.store a s.2 (s.1.mem.cell (a.off + i)) s', s.2 + 1)
  | .panic s' => .panic (s', s.2)
  | .diverge => .diverge

/-- The callback returns, whatever the state and the arguments. -/
def AlwaysReturns (cb : T → GoM σ α) : Prop := ∀ x s, ∃ a s', cb x s = .ok a s'

/-- A callback for `ForEachMutable`: `*p = f(*p)`, and a push of `h` of what `*p` was. -/
def setAndPush [GoZero T] (grow : Nat → Nat → Nat) (f h : T → T) (p : Nat) : GoM (CS T (Sl × ρ)) Unit := fun s =>
  CS.vec (Vec.pushBack grow (h (s.mem.cell p))) { s with mem := s.mem.write p [f (s.mem.cell p)] }

/-- A callback for `RemoveIf`: push `g x`, then answer `p x`. -/
def pushAndAnswer [GoZero T] (grow : Nat → Nat → Nat) (p : T → Bool) (g : T → T) (x : T) : GoM (CS T (Sl × ρ)) Bool := fun s =>
  match CS.vec (Vec.pushBack grow (g x)) s with
  | .ok _ s' => .ok (p x) s'
  | .panic s' => .panic s'
  | .diverge => .diverge

end Stl4go
