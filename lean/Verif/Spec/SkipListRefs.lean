import Verif.Spec.SkipListAny
import Verif.Model.Compare
import Verif.Model.Slice
/-!
# Skip lists whose compare function looks at something that changes

The keys are references, such as slices or pointers, and the compare function passed to `NewSkipListFunc` (`/repo/skiplist.go:57-63`) reads what they refer to. Between two calls of
methods the client may change that. During a call nothing changes, so each call works with the compare function of its time.
-/
namespace Stl4go
variable {K V τ T : Type}

/-- A step of the client: a method call (with the word from the random generator), or a change after which the state is `t`. -/
inductive RefOp (K V τ : Type) where
  | call (rnd : Nat) (op : SMOp K V)
  | change (t : τ)

/-- The client's steps on a list whose compare function in state `t` is `c t`. -/
def SL.runRefs (c : τ → K → K → Int) : τ → SL K V → List (RefOp K V τ) → Outcome ((τ × SL K V) × List (SMObs K V))
  | t, sl, [] => .ret ((t, sl), [])
  | t, sl, .call rnd op :: h => do
    let (sl, ob) ← sl.exec (.func (c t)) rnd op
    let (s, obs) ← SL.runRefs c t sl h
    return (s, ob :: obs)
  | _, sl, .change t :: h => SL.runRefs c t sl h

/-- Steps of which each touches at most the one entry it may touch, which compares equal at the time of the call. -/
inductive RefsRun (same : τ → K → K → Bool) : τ → List (K × V) → List (RefOp K V τ) → List (SMObs K V) → List (K × V) → Prop where
  | nil (t l) : RefsRun same t l [] [] l
  | call {t l rnd op ob l1 h obs l2} : LooseStep (same t) l op ob l1 → RefsRun same t l1 h obs l2 → RefsRun same t l (.call rnd op :: h) (ob :: obs) l2
  | change {t l t' h obs l2} : RefsRun same t' l h obs l2 → RefsRun same t l (.change t' :: h) obs l2

/-- A finite map, with the order of keys of the time. -/
def RefMap.run (less : τ → K → K → Bool) : τ → List (K × V) → List (RefOp K V τ) → List (SMObs K V)
  | _, _, [] => []
  | t, m, .call _ op :: h => (SMap.step (less t) m op).1 :: RefMap.run less t (SMap.step (less t) m op).2 h
  | _, m, .change t :: h => RefMap.run less t m h

/-- Changes leave the keys of the map in ascending order. -/
def RefMap.Ordered (less : τ → K → K → Bool) : τ → List (K × V) → List (RefOp K V τ) → Prop
  | _, _, [] => True
  | t, m, .call _ op :: h => RefMap.Ordered less t (SMap.step (less t) m op).2 h
  | _, m, .change t :: h => SMap.Sorted (less t) m ∧ RefMap.Ordered less t m h

/-! ## Slices as keys -/

/-- `Compare` (`/repo/compare.go:26-44`) of two slices in memory. It always returns (`C166_compare`). -/
def sliceCmp [GoOrd T] (m : Mem T) (a b : Sl) : Int :=
  match compare (a.read m) (b.read m) with
  | .ret r => r
  | .panic => 0
  | .diverge => 0

/-- The lexicographic order. -/
def lexLt [GoOrd T] : List T → List T → Bool
  | _, [] => false
  | [], _ :: _ => true
  | x :: a, y :: b => GoOrd.lt x y || (GoEq.eq x y && lexLt a b)

/-- An operation with its key replaced. -/
def SMOp.mapKey {K' : Type} (f : K → K') : SMOp K V → SMOp K' V
  | .insert k v => .insert (f k) v
  | .remove k => .remove (f k)
  | .clear => .clear
  | .update k v => .update (f k) v
  | .find k => .find (f k)
  | .has k => .has (f k)
  | .len => .len
  | .isEmpty => .isEmpty
  | .iterate => .iterate
  | .lowerBound k => .lowerBound (f k)
  | .upperBound k => .upperBound (f k)

/-- Entries with their keys replaced. -/
def mapKeys {K' : Type} (f : K → K') (l : List (K × V)) : List (K' × V) := l.map (fun e => (f e.1, e.2))

/-- An observation with its keys replaced. -/
def SMObs.mapKey {K' : Type} (f : K → K') : SMObs K V → SMObs K' V
  | .unit => .unit
  | .val v => .val v
  | .flag b => .flag b
  | .num n => .num n
  | .entries l => .entries (mapKeys f l)
  | .panicked => .panicked
  | .hung => .hung

/-- A client whose keys are slices, compared by `Compare`. A change writes memory in any way. Of the keys it is shown the client looks at the contents. -/
def SL.runSlices [GoOrd T] : Mem T → SL Sl V → List (RefOp Sl V (Mem T)) → Outcome ((Mem T × SL Sl V) × List (SMObs (List T) V))
  | m, sl, [] => .ret ((m, sl), [])
  | m, sl, .call rnd op :: h => do
    let (sl, ob) ← sl.exec (.func (sliceCmp m)) rnd op
    let (s, obs) ← SL.runSlices m sl h
    return (s, ob.mapKey (Sl.read m) :: obs)
  | _, sl, .change m :: h => SL.runSlices m sl h

/-- The calls, with what the slices hold at the time of the call for keys. -/
def contentsOf : Mem T → List (RefOp Sl V (Mem T)) → List (SMOp (List T) V)
  | _, [] => []
  | m, .call _ op :: h => op.mapKey (Sl.read m) :: contentsOf m h
  | _, .change m :: h => contentsOf m h

/-- No change alters what a slice holds that is then a key of the map. The key of an entry is the slice passed to the `Insert` that added the entry. -/
def KeysKept [GoOrd T] : Mem T → List (Sl × V) → List (RefOp Sl V (Mem T)) → Prop
  | _, _, [] => True
  | m, l, .call _ op :: h => KeysKept m (SMap.step (fun a b => lexLt (a.read m) (b.read m)) l op).2 h
  | m, l, .change m' :: h => (∀ e ∈ l, e.1.read m' = e.1.read m) ∧ KeysKept m' l h

end Stl4go
