import Verif.Model.Basic
/-!
# Model of `/repo/builtin_set.go`

A set is a Go map, which is a reference: `none` is the nil map. A map is the list of its keys, where keys that are not equal to
themselves (NaN) may occur any number of times. Which order a `range` loop visits the keys in and whether assigning to an existing key replaces the
stored one (-0 by +0, say) is up to the runtime. No loop in `/repo/builtin_set.go` deletes a key other than the current one.
Simplification: keys added to a map during a loop over it are not visited by that loop, where Go leaves that open; only `s.Update(s)` can
add any, and only when `s` has a NaN. The callbacks of `ForEach` and `ForEachIf` do not use the set. (`Model/BuiltinSetLive.lean` does
without these simplifications.) `String` is in `Model/Strings.lean`.
-/
namespace Stl4go
variable {K σ : Type}

/-- All maps with keys `K` (`/repo/builtin_set.go:8`), and the number of `range` loops started so far. -/
structure MWorld (K : Type) where
  maps : Nat → List K
  next : Nat
  loops : Nat

/-- The choices of the runtime: the order of the keys in each loop (`/repo/builtin_set.go:29`) and whether assigning replaces an equal key
(`/repo/builtin_set.go:43`). -/
structure MapRt (K : Type) where
  order : Nat → List K → List K
  replace : Bool

/-- `BuiltinSet`, a map variable, `/repo/builtin_set.go:8`. -/
abbrev MRef := Option Nat

/-- Replace the contents of a map (`/repo/builtin_set.go:43`). -/
def MWorld.put (w : MWorld K) (i : Nat) (l : List K) : MWorld K := { w with maps := fun j => if j = i then l else w.maps j }

/-- The keys of a map, none for nil (`/repo/builtin_set.go:8`). -/
def MWorld.keysOf (w : MWorld K) : MRef → List K
  | none => []
  | some i => w.maps i

/-- `make(BuiltinSet[K])`, `/repo/builtin_set.go:12`, and `BuiltinSet[K]{}`, `/repo/builtin_set.go:117`. -/
def mapMake : GoM (MWorld K) MRef := fun w => .ok (some w.next) { w.put w.next [] with next := w.next + 1 }

/-- `len(s)`, `/repo/builtin_set.go:24`. -/
def mapLen (s : MRef) : GoM (MWorld K) Int := fun w => .ok (w.keysOf s).length w

/-- `_, ok := s[k]`, `/repo/builtin_set.go:36`. -/
def mapHas [GoEq K] (s : MRef) (k : K) : GoM (MWorld K) Bool := fun w => .ok ((w.keysOf s).any (fun e => GoEq.eq k e)) w

/-- The keys after an assignment (`/repo/builtin_set.go:43`). -/
def assignKey [GoEq K] (replace : Bool) (l : List K) (k : K) : List K :=
  if l.any (fun e => GoEq.eq k e) then l.map (fun e => if replace && GoEq.eq k e then k else e) else l ++ [k]

/-- `s[k] = struct{}{}`, `/repo/builtin_set.go:43`: panics for a nil map. -/
def mapSet [GoEq K] (rt : MapRt K) (s : MRef) (k : K) : GoM (MWorld K) Unit :=
  match s with
  | none => GoM.panic
  | some i => GoM.modify (fun w => w.put i (assignKey rt.replace (w.maps i) k))

/-- `delete(s, k)`, `/repo/builtin_set.go:30`: no effect on a nil map. -/
def mapDelete [GoEq K] (s : MRef) (k : K) : GoM (MWorld K) Unit :=
  match s with
  | none => pure ()
  | some i => GoM.modify (fun w => w.put i ((w.maps i).filter (fun e => !GoEq.eq k e)))

/-- The keys a loop `for k := range s` will visit, `/repo/builtin_set.go:29`. -/
def mapRange (rt : MapRt K) (s : MRef) : GoM (MWorld K) (List K) := fun w =>
  .ok (rt.order w.loops (w.keysOf s)) { w with loops := w.loops + 1 }

/-- Loops that assign all of a list: `/repo/builtin_set.go:50-52`, `/repo/builtin_set.go:110-112`. -/
def setAll [GoEq K] (rt : MapRt K) (s : MRef) : (ks : List K) → GoM (MWorld K) Unit
  | [] => pure ()
  | k :: ks => do
    mapSet rt s k
    setAll rt s ks

/-- Loops that delete all of a list: `/repo/builtin_set.go:29-31`, `/repo/builtin_set.go:72-74`. -/
def deleteAll [GoEq K] (s : MRef) : (ks : List K) → GoM (MWorld K) Unit
  | [] => pure ()
  | k :: ks => do
    mapDelete s k
    deleteAll s ks

/-- `InsertN`, `/repo/builtin_set.go:48-54`. -/
def bsInsertN [GoEq K] (rt : MapRt K) (s : MRef) (ks : List K) : GoM (MWorld K) Int := do
  let oldLen ← mapLen s
  setAll rt s ks
  let n ← mapLen s
  return n - oldLen

/-- `SetOf`, `/repo/builtin_set.go:11-15`. -/
def bsSetOf [GoEq K] (rt : MapRt K) (ks : List K) : GoM (MWorld K) MRef := do
  let s ← mapMake
  let _ ← bsInsertN rt s ks
  return s

/-- `IsEmpty`, `/repo/builtin_set.go:18-20`. -/
def bsIsEmpty (s : MRef) : GoM (MWorld K) Bool := do
  let n ← mapLen s
  return decide (n = 0)

/-- `Len`, `/repo/builtin_set.go:23-25`. -/
def bsLen (s : MRef) : GoM (MWorld K) Int := mapLen s

/-- `Clear`, `/repo/builtin_set.go:28-32`. -/
def bsClear [GoEq K] (rt : MapRt K) (s : MRef) : GoM (MWorld K) Unit := do
  let ks ← mapRange rt s
  deleteAll s ks

/-- `Has`, `/repo/builtin_set.go:35-38`. -/
def bsHas [GoEq K] (s : MRef) (k : K) : GoM (MWorld K) Bool := mapHas s k

/-- `Insert`, `/repo/builtin_set.go:41-45`. -/
def bsInsert [GoEq K] (rt : MapRt K) (s : MRef) (k : K) : GoM (MWorld K) Bool := do
  let oldLen ← mapLen s
  mapSet rt s k
  let n ← mapLen s
  return decide (n > oldLen)

/-- `Remove`, `/repo/builtin_set.go:57-61`. -/
def bsRemove [GoEq K] (s : MRef) (k : K) : GoM (MWorld K) Bool := do
  let ok ← mapHas s k
  mapDelete s k
  return ok

/-- `Delete`, `/repo/builtin_set.go:65-67`. -/
def bsDelete [GoEq K] (s : MRef) (k : K) : GoM (MWorld K) Unit := mapDelete s k

/-- `RemoveN`, `/repo/builtin_set.go:70-76`. -/
def bsRemoveN [GoEq K] (s : MRef) (ks : List K) : GoM (MWorld K) Int := do
  let oldLen ← mapLen s
  deleteAll s ks
  let n ← mapLen s
  return oldLen - n

/-- Loop of `Keys`, `/repo/builtin_set.go:81-83`. -/
def keysLoop : (ks keys : List K) → List K
  | [], keys => keys
  | k :: ks, keys => keysLoop ks (keys ++ [k])

/-- `Keys`, `/repo/builtin_set.go:79-85`; the elements of the new slice. -/
def bsKeys (rt : MapRt K) (s : MRef) : GoM (MWorld K) (List K) := do
  let ks ← mapRange rt s
  return keysLoop ks []

/-- Loop of `ForEach`, `/repo/builtin_set.go:89-91`; the callback has a state `σ`. -/
def bsForEachLoop (cb : σ → K → σ) : List K → σ → σ
  | [], t => t
  | k :: ks, t => bsForEachLoop cb ks (cb t k)

/-- `ForEach`, `/repo/builtin_set.go:88-92`. -/
def bsForEach (rt : MapRt K) (s : MRef) (cb : σ → K → σ) (t : σ) : GoM (MWorld K) σ := do
  let ks ← mapRange rt s
  return bsForEachLoop cb ks t

/-- Loop of `ForEachIf`, `/repo/builtin_set.go:96-100`. -/
def bsForEachIfLoop (cb : σ → K → σ × Bool) : List K → σ → σ
  | [], t => t
  | k :: ks, t => if (cb t k).2 then bsForEachIfLoop cb ks (cb t k).1 else (cb t k).1

/-- `ForEachIf`, `/repo/builtin_set.go:95-101`. -/
def bsForEachIf (rt : MapRt K) (s : MRef) (cb : σ → K → σ × Bool) (t : σ) : GoM (MWorld K) σ := do
  let ks ← mapRange rt s
  return bsForEachIfLoop cb ks t

/-- `Update`, `/repo/builtin_set.go:109-113`. -/
def bsUpdate [GoEq K] (rt : MapRt K) (s other : MRef) : GoM (MWorld K) Unit := do
  let ks ← mapRange rt other
  setAll rt s ks

/-- `Union`, `/repo/builtin_set.go:116-121`. -/
def bsUnion [GoEq K] (rt : MapRt K) (s other : MRef) : GoM (MWorld K) MRef := do
  let result ← mapMake
  bsUpdate rt result s
  bsUpdate rt result other
  return result

/-- `orderSet`, `/repo/builtin_set.go:123-128`. -/
def orderSet (a b : MRef) : GoM (MWorld K) (MRef × MRef) := do
  let n ← bsLen a
  let m ← bsLen b
  if n < m then return (a, b) else return (b, a)

/-- Loop of `Intersection`, `/repo/builtin_set.go:134-138`. -/
def interLoop [GoEq K] (rt : MapRt K) (large result : MRef) : List K → GoM (MWorld K) Unit
  | [] => pure ()
  | k :: ks => do
    let h ← bsHas large k
    if h then
      let _ ← bsInsert rt result k
      interLoop rt large result ks
    else interLoop rt large result ks

/-- `Intersection`, `/repo/builtin_set.go:131-140`. -/
def bsIntersection [GoEq K] (rt : MapRt K) (s other : MRef) : GoM (MWorld K) MRef := do
  let result ← mapMake
  let sl ← orderSet s other
  let ks ← mapRange rt sl.1
  interLoop rt sl.2 result ks
  return result

/-- Loop of `Difference`, `/repo/builtin_set.go:145-149`. -/
def diffLoop [GoEq K] (rt : MapRt K) (other result : MRef) : List K → GoM (MWorld K) Unit
  | [] => pure ()
  | k :: ks => do
    let h ← bsHas other k
    if !h then
      let _ ← bsInsert rt result k
      diffLoop rt other result ks
    else diffLoop rt other result ks

/-- `Difference`, `/repo/builtin_set.go:143-151`. -/
def bsDifference [GoEq K] (rt : MapRt K) (s other : MRef) : GoM (MWorld K) MRef := do
  let result ← mapMake
  let ks ← mapRange rt s
  diffLoop rt other result ks
  return result

/-- Loop of `IsDisjointOf`, `/repo/builtin_set.go:157-161`. -/
def disjointLoop [GoEq K] (large : MRef) : List K → GoM (MWorld K) Bool
  | [] => pure true
  | k :: ks => do
    let h ← bsHas large k
    if h then return false else disjointLoop large ks

/-- `IsDisjointOf`, `/repo/builtin_set.go:155-163`. -/
def bsIsDisjointOf [GoEq K] (rt : MapRt K) (s other : MRef) : GoM (MWorld K) Bool := do
  let sl ← orderSet s other
  let ks ← mapRange rt sl.1
  disjointLoop sl.2 ks

/-- Loop of `IsSubsetOf`, `/repo/builtin_set.go:170-174`. -/
def subsetLoop [GoEq K] (other : MRef) : List K → GoM (MWorld K) Bool
  | [] => pure true
  | k :: ks => do
    let h ← bsHas other k
    if !h then return false else subsetLoop other ks

/-- `IsSubsetOf`, `/repo/builtin_set.go:166-176`. -/
def bsIsSubsetOf [GoEq K] (rt : MapRt K) (s other : MRef) : GoM (MWorld K) Bool := do
  let n ← bsLen s
  let m ← bsLen other
  if n > m then return false
  else do
    let ks ← mapRange rt s
    subsetLoop other ks

/-- `IsSupersetOf`, `/repo/builtin_set.go:179-181`. -/
def bsIsSupersetOf [GoEq K] (rt : MapRt K) (s other : MRef) : GoM (MWorld K) Bool := bsIsSubsetOf rt other s

end Stl4go
