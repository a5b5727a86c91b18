import Verif.Model.SkipListNested
import Verif.Spec.SkipListCallback
/-!
# Specification of loops over sorted maps inside one another

A loop is an iterator that the client cannot name. Of the iterators of a map (`SCSpec`) those with even numbers are the client's; a loop that runs inside
`d` others uses iterator `2 * d + 1`. All operations move them as they move every iterator.
-/
namespace Stl4go
variable {K V α β σ : Type}

/-- An operation of the client. -/
def SCOp.outer : SCOp K V → SCOp K V
  | .map r op => .map r op
  | .iterate c => .iterate (2 * c)
  | .lowerBound c k => .lowerBound (2 * c) k
  | .upperBound c k => .upperBound (2 * c) k
  | .findRange c a b => .findRange (2 * c) a b
  | .isNotEnd c => .isNotEnd (2 * c)
  | .key c => .key (2 * c)
  | .value c => .value (2 * c)
  | .next c => .next (2 * c)
  | .pointer p c => .pointer p (2 * c)
  | .find p k => .find p k
  | .read p => .read p
  | .write p v => .write p v

/-- The maps. -/
structure SNSpec (K V : Type) where
  maps : Nat → SCSpec K V

/-- Replace map `i`. -/
def SNSpec.set (s : SNSpec K V) (i : Nat) (x : SCSpec K V) : SNSpec K V := ⟨fun j => if j = i then x else s.maps j⟩

/-- All maps are empty. -/
def SNSpec.init : SNSpec K V := ⟨fun _ => SCSpec.init⟩

/-- Go on after what returned normally. -/
def Res.andThen {S : Type} (r : Res S α) (f : α → S → Res S β) : Res S β :=
  match r with
  | .ok a s => f a s
  | .panic s => .panic s
  | .diverge => .diverge

/-- `for ; it.IsNotEnd(); it.MoveToNext() { if !cb(it.Key(), it.Value()) { break } }` for iterator `c` of map `i`, in at most `fuel` rounds. -/
def SNSpec.eachLoop (less : Nat → K → K → Bool) (i c : Nat) (cb : σ → K → V → SNSpec K V → Res (SNSpec K V) (σ × Bool)) :
    (fuel : Nat) → σ → SNSpec K V → Res (SNSpec K V) σ
  | 0, _, _ => .diverge
  | fuel + 1, t, s =>
    match ((s.maps i).curs c).place.bind ((s.maps i).entry (less i)) with
    | none => .ok t s
    | some e => match cb t e.1 e.2 s with
      | .ok (t, true) s => match ((s.maps i).curs c).next (less i) (s.maps i).map with
        | some d => SNSpec.eachLoop less i c cb fuel t (s.set i ((s.maps i).put c d))
        | none => .panic s
      | .ok (t, false) s => .ok t s
      | .panic s => .panic s
      | .diverge => .diverge

/-- The whole call. -/
def SNSpec.each (less : Nat → K → K → Bool) (i c : Nat) (cb : σ → K → V → SNSpec K V → Res (SNSpec K V) (σ × Bool)) (fuel : Nat) (t : σ)
    (s : SNSpec K V) : Res (SNSpec K V) σ :=
  SNSpec.eachLoop less i c cb fuel t (s.set i ((s.maps i).put c { start := (s.maps i).map.head?.map (·.1) }))

/-- Run client code inside `d` loops. -/
def SNProg.spec (less : Nat → K → K → Bool) (fuel : Nat) : {α : Type} → SNProg K V α → (d : Nat) → SNSpec K V → Res (SNSpec K V) α
  | _, .ret a, _, s => .ok a s
  | _, .panic, _, s => .panic s
  | _, .hang, _, _ => .diverge
  | _, .call i op k, d, s =>
    match ((s.maps i).step (less i) op.outer).1 with
    | .of .panicked => .panic (s.set i ((s.maps i).step (less i) op.outer).2)
    | o => (k o).spec less fuel d (s.set i ((s.maps i).step (less i) op.outer).2)
  | _, .each i cb t k, d, s =>
    (s.each less i (2 * d + 1) (fun t k v s => (cb t k v).spec less fuel (d + 1) s) fuel t).andThen (fun t s => (k t).spec less fuel d s)
  | _, .eachPtr p i cb t k, d, s =>
    (s.each less i (2 * d + 1)
      (fun t k _ s => (cb t k).spec less fuel (d + 1) (s.set i ((s.maps i).point p ((s.maps i).curs (2 * d + 1)).place))) fuel t).andThen
      (fun t s => (k t).spec less fuel d s)

/-! ## Which calls a program makes -/

/-- All calls that the program and its callbacks make are in `P`, and it does not hang by itself unless `hangs`. -/
def SNProg.Calls (hangs : Prop) (P : Nat → SCOp K V → Prop) : {α : Type} → SNProg K V α → Prop
  | _, .ret _ => True
  | _, .panic => True
  | _, .hang => hangs
  | _, .call i op k => P i op ∧ ∀ o, (k o).Calls hangs P
  | _, .each _ cb _ k => (∀ t key v, (cb t key v).Calls hangs P) ∧ ∀ t, (k t).Calls hangs P
  | _, .eachPtr _ _ cb _ k => (∀ t key, (cb t key).Calls hangs P) ∧ ∀ t, (k t).Calls hangs P

/-- The operation changes no entry. -/
def SCOp.Reading : SCOp K V → Prop
  | .map _ (.insert _ _) | .map _ (.remove _) | .map _ .clear | .map _ (.update _ _) | .write _ _ => False
  | _ => True

/-- `for _, e := range es { if !cb(e.key, e.value) { break } }` -/
def visitEntries {S : Type} (cb : σ → K → V → GoM S (σ × Bool)) : List (K × V) → σ → GoM S σ
  | [], t => pure t
  | e :: es, t => do
    let r ← cb t e.1 e.2
    if r.2 = false then return r.1 else visitEntries cb es r.1

/-- Continue with what the program returns. -/
def SNProg.bind : {α : Type} → SNProg K V α → (α → SNProg K V β) → SNProg K V β
  | _, .ret a, f => f a
  | _, .panic, _ => .panic
  | _, .hang, _ => .hang
  | _, .call i op k, f => .call i op (fun o => (k o).bind f)
  | _, .each i cb t k, f => .each i cb t (fun t => (k t).bind f)
  | _, .eachPtr p i cb t k, f => .eachPtr p i cb t (fun t => (k t).bind f)

/-- The same callback, which also notes the keys it is called with. -/
def SNProg.noting (cb : σ → K → V → SNProg K V (σ × Bool)) (t : σ × List K) (k : K) (v : V) : SNProg K V ((σ × List K) × Bool) :=
  (cb t.1 k v).bind (fun r => .ret ((r.1, t.2 ++ [k]), r.2))

/-- The same for `ForEachMutableIf`. -/
def SNProg.notingPtr (cb : σ → K → SNProg K V (σ × Bool)) (t : σ × List K) (k : K) : SNProg K V ((σ × List K) × Bool) :=
  (cb t.1 k).bind (fun r => .ret ((r.1, t.2 ++ [k]), r.2))

/-- A callback of `ForEach` as one of `ForEachIf` that always goes on. -/
def SNProg.goOn (cb : σ → K → V → SNProg K V σ) (t : σ) (k : K) (v : V) : SNProg K V (σ × Bool) := (cb t k v).bind (fun t => .ret (t, true))

end Stl4go
