import Verif.Model.BuiltinSet
/-!
# `/repo/builtin_set.go` with the accesses to maps counted

The functions of `Model/BuiltinSet.lean` once more; looking a key up in a map and assigning a key are counted, `len` and steps of a loop are not.
-/
namespace Stl4go
variable {K α : Type}

/-- Lookups (`/repo/builtin_set.go:36`) and assignments (`/repo/builtin_set.go:43`) so far. -/
structure MCost where
  lookups : Nat
  assigns : Nat
  deriving DecidableEq

/-- A step of the uncounted model, with its cost (`/repo/builtin_set.go:36`, `/repo/builtin_set.go:43`). -/
def costing (lookups assigns : Nat) (m : GoM (MWorld K) α) : GoM (MWorld K × MCost) α := fun p =>
  match m p.1 with
  | .ok a w => .ok a (w, ⟨p.2.lookups + lookups, p.2.assigns + assigns⟩)
  | .panic w => .panic (w, ⟨p.2.lookups + lookups, p.2.assigns + assigns⟩)
  | .diverge => .diverge

/-- Loops that assign all of a list: `/repo/builtin_set.go:50-52`, `/repo/builtin_set.go:110-112`. -/
def setAllC [GoEq K] (rt : MapRt K) (s : MRef) : (ks : List K) → GoM (MWorld K × MCost) Unit
  | [] => pure ()
  | k :: ks => do
    costing 0 1 (mapSet rt s k)
    setAllC rt s ks

/-- `Update`, `/repo/builtin_set.go:109-113`. -/
def bsUpdateC [GoEq K] (rt : MapRt K) (s other : MRef) : GoM (MWorld K × MCost) Unit := do
  let ks ← costing 0 0 (mapRange rt other)
  setAllC rt s ks

/-- `Union`, `/repo/builtin_set.go:116-121`. -/
def bsUnionC [GoEq K] (rt : MapRt K) (s other : MRef) : GoM (MWorld K × MCost) MRef := do
  let result ← costing 0 0 mapMake
  bsUpdateC rt result s
  bsUpdateC rt result other
  return result

/-- Loop of `Intersection`, `/repo/builtin_set.go:134-138`. -/
def interLoopC [GoEq K] (rt : MapRt K) (large result : MRef) : List K → GoM (MWorld K × MCost) Unit
  | [] => pure ()
  | k :: ks => do
    let h ← costing 1 0 (bsHas large k)
    if h then
      let _ ← costing 0 1 (bsInsert rt result k)
      interLoopC rt large result ks
    else interLoopC rt large result ks

/-- `Intersection`, `/repo/builtin_set.go:131-140`. -/
def bsIntersectionC [GoEq K] (rt : MapRt K) (s other : MRef) : GoM (MWorld K × MCost) MRef := do
  let result ← costing 0 0 mapMake
  let sl ← costing 0 0 (orderSet s other)
  let ks ← costing 0 0 (mapRange rt sl.1)
  interLoopC rt sl.2 result ks
  return result

/-- Loop of `Difference`, `/repo/builtin_set.go:145-149`. -/
def diffLoopC [GoEq K] (rt : MapRt K) (other result : MRef) : List K → GoM (MWorld K × MCost) Unit
  | [] => pure ()
  | k :: ks => do
    let h ← costing 1 0 (bsHas other k)
    if !h then
      let _ ← costing 0 1 (bsInsert rt result k)
      diffLoopC rt other result ks
    else diffLoopC rt other result ks

/-- `Difference`, `/repo/builtin_set.go:143-151`. -/
def bsDifferenceC [GoEq K] (rt : MapRt K) (s other : MRef) : GoM (MWorld K × MCost) MRef := do
  let result ← costing 0 0 mapMake
  let ks ← costing 0 0 (mapRange rt s)
  diffLoopC rt other result ks
  return result

/-- Loop of `IsDisjointOf`, `/repo/builtin_set.go:157-161`. -/
def disjointLoopC [GoEq K] (large : MRef) : List K → GoM (MWorld K × MCost) Bool
  | [] => pure true
  | k :: ks => do
    let h ← costing 1 0 (bsHas large k)
    if h then return false else disjointLoopC large ks

/-- `IsDisjointOf`, `/repo/builtin_set.go:155-163`. -/
def bsIsDisjointOfC [GoEq K] (rt : MapRt K) (s other : MRef) : GoM (MWorld K × MCost) Bool := do
  let sl ← costing 0 0 (orderSet s other)
  let ks ← costing 0 0 (mapRange rt sl.1)
  disjointLoopC sl.2 ks

/-- Loop of `IsSubsetOf`, `/repo/builtin_set.go:170-174`. -/
def subsetLoopC [GoEq K] (other : MRef) : List K → GoM (MWorld K × MCost) Bool
  | [] => pure true
  | k :: ks => do
    let h ← costing 1 0 (bsHas other k)
    if !h then return false else subsetLoopC other ks

/-- `IsSubsetOf`, `/repo/builtin_set.go:166-176`. -/
def bsIsSubsetOfC [GoEq K] (rt : MapRt K) (s other : MRef) : GoM (MWorld K × MCost) Bool := do
  let n ← costing 0 0 (bsLen s)
  let m ← costing 0 0 (bsLen other)
  if n > m then return false
  else do
    let ks ← costing 0 0 (mapRange rt s)
    subsetLoopC other ks

end Stl4go
