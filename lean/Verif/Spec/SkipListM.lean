import Verif.Model.SkipListM
import Verif.Spec.SkipList
/-!
# Skip lists whose compare function is Go code: what a client can observe

The compare function `cmp` may keep a state, panic or hang. `AgreesWith cmp c` is all that is assumed about the answers it does give.
-/
namespace Stl4go
variable {K V τ α : Type}

/-- Whenever the compare function returns, the sign of its answer is that of `c`. It may panic or hang instead. -/
def AgreesWith (cmp : CmpM K τ) (c : K → K → Int) : Prop := ∀ a b t r t', cmp a b t = .ok r t' → r.sign = (c a b).sign

/-- Call the compare function for these pairs, in this order. -/
def callAll (cmp : CmpM K τ) : List (K × K) → GoM τ Unit
  | [] => pure ()
  | p :: ps => do
    let _ ← cmp p.1 p.2
    callAll cmp ps

/-- The whole effect of `x` in state `s`: it makes exactly the calls `ps`, in this order. If they all return, it gives `a` and the list
becomes `sl'`. If one panics, so does `x`, with the list as before but for its scratch array. If one hangs, so does `x`. -/
def Follows (cmp : CmpM K τ) (ps : List (K × K)) (x : GoM (SLS K V τ) α) (s : SLS K V τ) (sl' : SL K V) (a : α) : Prop :=
  match callAll cmp ps s.st with
  | .ok _ t => x s = .ok a ⟨sl', t⟩
  | .panic t => ∃ cache, cache.length = s.sl.prevsCache.length ∧ x s = .panic ⟨{ s.sl with prevsCache := cache }, t⟩
  | .diverge => x s = .diverge

/-- One client operation. -/
def SLM.exec (cmp : CmpM K τ) (rnd : Nat) : SMOp K V → GoM (SLS K V τ) (SMObs K V)
  | .insert k v => do
    SLM.insert cmp rnd k v
    pure .unit
  | .remove k => do
    let b ← SLM.remove cmp k
    pure (.flag b)
  | .clear => SLS.write (fun sl => .ret (sl.clear, .unit))
  | .update k v => do
    let r ← SLM.find cmp k
    match r with
    | none => pure (.flag false)
    | some p => SLS.write (fun sl => do let sl ← sl.setValue p v; return (sl, .flag true))
  | .find k => do
    let r ← SLM.find cmp k
    match r with
    | none => pure (.val none)
    | some p => SLS.read (fun sl => do let v ← sl.readPtr p; return .val (some v))
  | .has k => do
    let b ← SLM.has cmp k
    pure (.flag b)
  | .len => SLS.read (fun sl => .ret (.num sl.length))
  | .isEmpty => SLS.read (fun sl => .ret (.flag sl.isEmpty))
  | .iterate => SLS.read (fun sl => do let it ← sl.iterate; let l ← sl.observeIter it; return .entries l)
  | .lowerBound k => do
    let it ← SLM.lowerBoundIter cmp k
    SLS.read (fun sl => do let l ← sl.observeIter it; return .entries l)
  | .upperBound k => do
    let it ← SLM.upperBoundIter cmp k
    SLS.read (fun sl => do let l ← sl.observeIter it; return .entries l)

/-- The key the operation is about. -/
def SMOp.key? : SMOp K V → Option K
  | .insert k _ => some k
  | .remove k => some k
  | .update k _ => some k
  | .find k => some k
  | .has k => some k
  | .lowerBound k => some k
  | .upperBound k => some k
  | _ => none

/-- A program that makes the operations in turn and recovers from panics; it ends early if an operation hangs. -/
def SLM.run (cmp : CmpM K τ) : SLS K V τ → List (Nat × SMOp K V) → List (SMObs K V) × SLS K V τ
  | s, [] => ([], s)
  | s, (rnd, op) :: ops =>
    match SLM.exec cmp rnd op s with
    | .ok ob s' => let r := SLM.run cmp s' ops; (ob :: r.1, r.2)
    | .panic s' => let r := SLM.run cmp s' ops; (.panicked :: r.1, r.2)
    | .diverge => ([.hung], s)

/-- What a client sees if each operation either makes a `step`, or fails and does nothing, or hangs, which ends the history.
`fails` and `hangs` say which failures are possible. -/
inductive FallibleRun {L : Type} (step : L → SMOp K V → SMObs K V → L → Prop) (fails hangs : SMOp K V → Prop) :
    L → List (SMOp K V) → List (SMObs K V) → L → Prop where
  | nil (m) : FallibleRun step fails hangs m [] [] m
  | done {m op ob m1 ops obs m2} : step m op ob m1 → FallibleRun step fails hangs m1 ops obs m2 →
      FallibleRun step fails hangs m (op :: ops) (ob :: obs) m2
  | failed {m op ops obs m2} : fails op → FallibleRun step fails hangs m ops obs m2 →
      FallibleRun step fails hangs m (op :: ops) (.panicked :: obs) m2
  | hung {m op ops} : hangs op → FallibleRun step fails hangs m (op :: ops) [.hung] m

/-- The operation is about a key for which some call of the compare function, with a key as the other argument, panics. -/
def CmpPanics (cmp : CmpM K τ) (op : SMOp K V) : Prop := ∃ k a t t', op.key? = some k ∧ cmp a k t = .panic t'
/-- The same for calls that hang. -/
def CmpHangs (cmp : CmpM K τ) (op : SMOp K V) : Prop := ∃ k a t, op.key? = some k ∧ cmp a k t = .diverge

/-- The number of `Insert` operations. -/
def inserts (ops : List (SMOp K V)) : Nat := (ops.filter fun op => match op with | .insert _ _ => true | _ => false).length

/-- The compare function with a record of its calls. -/
def CmpM.logged (cmp : CmpM K τ) : CmpM K (τ × List (K × K)) := fun a b s =>
  match cmp a b s.1 with
  | .ok r t => .ok r (t, s.2 ++ [(a, b)])
  | .panic t => .panic (t, s.2 ++ [(a, b)])
  | .diverge => .diverge

/-- The calls made, if the operation returned or panicked. -/
def callsOf : Res (SLS K V (τ × List (K × K))) α → Option (List (K × K))
  | .ok _ s => some s.st.2
  | .panic s => some s.st.2
  | .diverge => none

/-- The list is unchanged, the result is good, and a panic or hang comes from the compare function. -/
def Safe (cmp : CmpM K τ) (key : K) (sl : SL K V) (P : α → Prop) : Res (SLS K V τ) α → Prop
  | .ok a s => s.sl = sl ∧ P a
  | .panic s => s.sl = sl ∧ ∃ a t t', cmp a key t = .panic t'
  | .diverge => ∃ a t, cmp a key t = .diverge

/-- What reading may show, whatever the compare function answered. -/
def ReadShows (l : List (K × V)) : SMOp K V → SMObs K V → Prop
  | .find _, ob => ob = .val none ∨ ∃ e ∈ l, ob = .val (some e.2)
  | .has _, ob => ∃ b, ob = .flag b
  | .lowerBound _, ob => ∃ A B, l = A ++ B ∧ ob = .entries B
  | .upperBound _, ob => ∃ A B, l = A ++ B ∧ ob = .entries B
  | _, _ => False

end Stl4go
