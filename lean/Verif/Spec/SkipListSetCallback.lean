import Verif.Model.SkipListSetCallback
import Verif.Spec.SkipListCallback
/-!
# Specification of sets with iterators and callbacks

A set is a map to `struct{}`, and each method of the set means a few calls of the map's methods. What these do to iterators and loops is the
specification of C120 and C125.
-/
namespace Stl4go
variable {K α σ : Type}

def SCObs.truth : SCObs K Unit → Bool
  | .of (.flag b) => b
  | _ => false

def SCObs.number : SCObs K Unit → Int
  | .of (.num n) => n
  | _ => 0

def SCObs.keys : SCObs K Unit → List K
  | .of (.entries l) => l.map (·.1)
  | _ => []

/-- Insert keys one after the other and count those that were absent. -/
def SSOp.insertAll : List (Nat × K) → Int → SProg K Unit Int
  | [], n => .ret n
  | x :: ks, n => .call (.map 0 (.has x.2)) (fun o => .call (.map x.1 (.insert x.2 ())) (fun _ => SSOp.insertAll ks (if o.truth then n else n + 1)))

/-- Remove keys one after the other and count those that were present. -/
def SSOp.removeAll : List K → Int → SProg K Unit Int
  | [], n => .ret n
  | k :: ks, n => .call (.map 0 (.remove k)) (fun o => SSOp.removeAll ks (if o.truth then n + 1 else n))

/-- The meaning of the set's methods. -/
def SSOp.prog : SSOp K → SProg K Unit (SSObs K)
  | .insert rnd k => .call (.map 0 (.has k)) (fun o => .call (.map rnd (.insert k ())) (fun _ => .ret (.flag (!o.truth))))
  | .insertN ks => (SSOp.insertAll ks 0).bind (fun n => .ret (.num n))
  | .remove k => .call (.map 0 (.remove k)) (fun o => .ret (.flag o.truth))
  | .removeN ks => (SSOp.removeAll ks 0).bind (fun n => .ret (.num n))
  | .clear => .call (.map 0 .clear) (fun _ => .ret .unit)
  | .has k => .call (.map 0 (.has k)) (fun o => .ret (.flag o.truth))
  | .len => .call (.map 0 .len) (fun o => .ret (.num o.number))
  | .isEmpty => .call (.map 0 .isEmpty) (fun o => .ret (.flag o.truth))
  | .keys => .call (.map 0 .iterate) (fun o => .ret (.list o.keys))
  | .lowerBound k => .call (.map 0 (.lowerBound k)) (fun o => .ret (.list o.keys))
  | .upperBound k => .call (.map 0 (.upperBound k)) (fun o => .ret (.list o.keys))

/-- The meaning of any call. -/
def SetOp.prog : SetOp K → SProg K Unit (SetObs K)
  | .set op => op.prog.bind (fun o => .ret (.of o))
  | .lowerBound c k => .call (.lowerBound c k) (fun _ => .ret (.of .unit))
  | .upperBound c k => .call (.upperBound c k) (fun _ => .ret (.of .unit))
  | .findRange c a b => .call (.findRange c a b) (fun _ => .ret (.of .unit))
  | .isNotEnd c => .call (.isNotEnd c) (fun o => .ret (.of (.flag o.truth)))
  | .value c => .call (.key c) (fun o => match o with
    | .key k => .ret (.key k)
    | _ => .panic)
  | .next c => .call (.next c) (fun _ => .ret (.of .unit))

/-- The meaning of a callback. -/
def SetProg.onMap : SetProg K α → SProg K Unit α
  | .ret a => .ret a
  | .panic => .panic
  | .hang => .hang
  | .call op k => op.prog.bind (fun o => (k o).onMap)

/-- One call on the specification. -/
def SCSpec.kstep (less : K → K → Bool) (s : SCSpec K Unit) (op : SetOp K) : SetObs K × SCSpec K Unit :=
  match op.prog.spec less ⟨s, {}⟩ with
  | .ok o x => (o, x.spec)
  | .panic x => (.panicked, x.spec)
  | .diverge => (.hung, s)

/-- A history. -/
def SCSpec.krun (less : K → K → Bool) : SCSpec K Unit → List (SetOp K) → List (SetObs K) × SCSpec K Unit
  | s, [] => ([], s)
  | s, op :: ops => ((s.kstep less op).1 :: ((s.kstep less op).2.krun less ops).1, ((s.kstep less op).2.krun less ops).2)

/-- A callback that always goes on. -/
def SetProg.goOn (cb : σ → K → SetProg K σ) (t : σ) (k : K) : SProg K Unit (σ × Bool) := SProg.goOn (fun t k => (cb t k).onMap) t k

/-- Continue with what the program returns. -/
def SetProg.bind {β : Type} : SetProg K α → (α → SetProg K β) → SetProg K β
  | .ret a, f => f a
  | .panic, _ => .panic
  | .hang, _ => .hang
  | .call op k, f => .call op (fun o => (k o).bind f)

/-- The same callback, which also notes the keys it is called with. -/
def SetProg.noting (cb : σ → K → SetProg K (σ × Bool)) (t : σ × List K) (k : K) : SetProg K ((σ × List K) × Bool) :=
  (cb t.1 k).bind (fun r => .ret ((r.1, t.2 ++ [k]), r.2))

/-- The same for `ForEach`. -/
def SetProg.notingAll (cb : σ → K → SetProg K σ) (t : σ × List K) (k : K) : SetProg K (σ × List K) :=
  (cb t.1 k).bind (fun r => .ret (r, t.2 ++ [k]))

/-- The call removes the element `q`. -/
def SetOp.removesKey (less : K → K → Bool) (q : K) : SetOp K → Bool
  | .set (.remove k) => sameKey less k q
  | .set (.removeN ks) => ks.any (fun k => sameKey less k q)
  | .set .clear => true
  | _ => false

/-- The call may insert. -/
def SetOp.isInsert : SetOp K → Bool
  | .set (.insert _ _) => true
  | .set (.insertN _) => true
  | _ => false

/-- The call panics in no state. -/
def SetOp.total : SetOp K → Bool
  | .value _ | .next _ => false
  | _ => true

/-- The program only makes calls that `ok` allows; it may panic or loop forever by itself only if that is said. -/
def SetProg.Within (panics hangs : Bool) (ok : SetOp K → Bool) : SetProg K α → Prop
  | .ret _ => True
  | .panic => panics = true
  | .hang => hangs = true
  | .call op k => ok op = true ∧ ∀ o, (k o).Within panics hangs ok

end Stl4go
