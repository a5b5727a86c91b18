import Verif.Spec.SkipList
/-!
# What a skip list still promises when the comparison obeys no law

The contents are a sequence of entries. Nothing is said about their order, but no operation may touch more than one entry
(other than `Clear`), and every observation is about entries that are there.
-/
namespace Stl4go
variable {K V : Type}

/-- Two keys compare equal: `a == b`, or the compare function returns 0. -/
def SLImpl.same (impl : SLImpl K) (a b : K) : Bool :=
  match impl with
  | .ordered _ => GoEq.eq a b
  | .func keyCmp => keyCmp a b == 0

/-- `l'` is `l` with the value of one entry, whose key compares equal to `k`, replaced by `v`. -/
def Overwritten (same : K → K → Bool) (k : K) (v : V) (l l' : List (K × V)) : Prop :=
  ∃ A e B, l = A ++ e :: B ∧ same e.1 k = true ∧ l' = A ++ (e.1, v) :: B

/-- `l'` is `l` with the new entry `(k, v)` somewhere. -/
def Added (k : K) (v : V) (l l' : List (K × V)) : Prop := ∃ A B, l = A ++ B ∧ l' = A ++ (k, v) :: B

/-- `l'` is `l` without one entry, whose key compares equal to `k`. -/
def Taken (same : K → K → Bool) (k : K) (l l' : List (K × V)) : Prop :=
  ∃ A e B, l = A ++ e :: B ∧ same e.1 k = true ∧ l' = A ++ B

/-- What one operation may do to the entries and show to the client. -/
def LooseStep (same : K → K → Bool) (l : List (K × V)) (op : SMOp K V) (ob : SMObs K V) (l' : List (K × V)) : Prop :=
  match op with
  | .insert k v => ob = .unit ∧ (Overwritten same k v l l' ∨ Added k v l l')
  | .remove k => (ob = .flag true ∧ Taken same k l l') ∨ (ob = .flag false ∧ l' = l)
  | .clear => ob = .unit ∧ l' = []
  | .update k v => (ob = .flag true ∧ Overwritten same k v l l') ∨ (ob = .flag false ∧ l' = l)
  | .find k => l' = l ∧ (ob = .val none ∨ ∃ e ∈ l, same e.1 k = true ∧ ob = .val (some e.2))
  | .has k => l' = l ∧ (ob = .flag false ∨ (ob = .flag true ∧ ∃ e ∈ l, same e.1 k = true))
  | .len => l' = l ∧ ob = .num l.length
  | .isEmpty => l' = l ∧ ob = .flag l.isEmpty
  | .iterate => l' = l ∧ ob = .entries l
  | .lowerBound _ => l' = l ∧ ∃ A B, l = A ++ B ∧ ob = .entries B
  | .upperBound _ => l' = l ∧ ∃ A B, l = A ++ B ∧ ob = .entries B

/-- A history of such steps. -/
inductive LooseRun (same : K → K → Bool) : List (K × V) → List (SMOp K V) → List (SMObs K V) → List (K × V) → Prop where
  | nil (l) : LooseRun same l [] [] l
  | cons {l op ob l1 ops obs l2} : LooseStep same l op ob l1 → LooseRun same l1 ops obs l2 →
      LooseRun same l (op :: ops) (ob :: obs) l2

/-- `l` is what iterating over `sl` yields. -/
def SL.Holds (sl : SL K V) (l : List (K × V)) : Prop := (sl.iterate >>= sl.observeIter) = .ret l

end Stl4go
