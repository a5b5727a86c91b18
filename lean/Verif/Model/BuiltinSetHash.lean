import Verif.Model.BuiltinSet
/-!
# Model of `/repo/builtin_set.go` with keys that cannot be hashed

Since Go 1.20 a caller may use an interface type as `K` (`BuiltinSet[any]`). Every map operation that takes a key hashes it first and panics if the dynamic
type of the key is not comparable; lookups and deletions do so also for an empty or nil map (the gc compiler's runtime). The functions are those of
`Model/BuiltinSet.lean` with such operations; `IsEmpty`, `Len`, `Keys` and the loops themselves hash nothing and are not repeated here.
-/
namespace Stl4go
variable {K : Type}

/-- Which keys can be hashed (`/repo/builtin_set.go:8`). -/
class GoHash (K : Type) where
  ok : K → Bool

/-- `_, ok := s[k]`, `/repo/builtin_set.go:36`. -/
def Hashed.lookup [GoEq K] [GoHash K] (s : MRef) (k : K) : GoM (MWorld K) Bool :=
  if GoHash.ok k then mapHas s k else GoM.panic

/-- `s[k] = struct{}{}`, `/repo/builtin_set.go:43`. -/
def Hashed.assign [GoEq K] [GoHash K] (rt : MapRt K) (s : MRef) (k : K) : GoM (MWorld K) Unit :=
  if GoHash.ok k then mapSet rt s k else GoM.panic

/-- `delete(s, k)`, `/repo/builtin_set.go:30`. -/
def Hashed.erase [GoEq K] [GoHash K] (s : MRef) (k : K) : GoM (MWorld K) Unit :=
  if GoHash.ok k then mapDelete s k else GoM.panic

/-- Loops that assign all of a list: `/repo/builtin_set.go:50-52`, `/repo/builtin_set.go:110-112`. -/
def Hashed.setAll [GoEq K] [GoHash K] (rt : MapRt K) (s : MRef) : (ks : List K) → GoM (MWorld K) Unit
  | [] => pure ()
  | k :: ks => do
    Hashed.assign rt s k
    Hashed.setAll rt s ks

/-- Loops that delete all of a list: `/repo/builtin_set.go:29-31`, `/repo/builtin_set.go:72-74`. -/
def Hashed.deleteAll [GoEq K] [GoHash K] (s : MRef) : (ks : List K) → GoM (MWorld K) Unit
  | [] => pure ()
  | k :: ks => do
    Hashed.erase s k
    Hashed.deleteAll s ks

/-- `InsertN`, `/repo/builtin_set.go:48-54`. -/
def Hashed.insertN [GoEq K] [GoHash K] (rt : MapRt K) (s : MRef) (ks : List K) : GoM (MWorld K) Int := do
  let oldLen ← mapLen s
  Hashed.setAll rt s ks
  let n ← mapLen s
  return n - oldLen

/-- `SetOf`, `/repo/builtin_set.go:11-15`. -/
def Hashed.setOf [GoEq K] [GoHash K] (rt : MapRt K) (ks : List K) : GoM (MWorld K) MRef := do
  let s ← mapMake
  let _ ← Hashed.insertN rt s ks
  return s

/-- `Clear`, `/repo/builtin_set.go:28-32`. -/
def Hashed.clear [GoEq K] [GoHash K] (rt : MapRt K) (s : MRef) : GoM (MWorld K) Unit := do
  let ks ← mapRange rt s
  Hashed.deleteAll s ks

/-- `Has`, `/repo/builtin_set.go:35-38`. -/
def Hashed.has [GoEq K] [GoHash K] (s : MRef) (k : K) : GoM (MWorld K) Bool := Hashed.lookup s k

/-- `Insert`, `/repo/builtin_set.go:41-45`. -/
def Hashed.insert [GoEq K] [GoHash K] (rt : MapRt K) (s : MRef) (k : K) : GoM (MWorld K) Bool := do
  let oldLen ← mapLen s
  Hashed.assign rt s k
  let n ← mapLen s
  return decide (n > oldLen)

/-- `Remove`, `/repo/builtin_set.go:57-61`. -/
def Hashed.remove [GoEq K] [GoHash K] (s : MRef) (k : K) : GoM (MWorld K) Bool := do
  let ok ← Hashed.lookup s k
  Hashed.erase s k
  return ok

/-- `Delete`, `/repo/builtin_set.go:65-67`. -/
def Hashed.delete [GoEq K] [GoHash K] (s : MRef) (k : K) : GoM (MWorld K) Unit := Hashed.erase s k

/-- `RemoveN`, `/repo/builtin_set.go:70-76`. -/
def Hashed.removeN [GoEq K] [GoHash K] (s : MRef) (ks : List K) : GoM (MWorld K) Int := do
  let oldLen ← mapLen s
  Hashed.deleteAll s ks
  let n ← mapLen s
  return oldLen - n

/-- `Update`, `/repo/builtin_set.go:109-113`. -/
def Hashed.update [GoEq K] [GoHash K] (rt : MapRt K) (s other : MRef) : GoM (MWorld K) Unit := do
  let ks ← mapRange rt other
  Hashed.setAll rt s ks

/-- `Union`, `/repo/builtin_set.go:116-121`. -/
def Hashed.union [GoEq K] [GoHash K] (rt : MapRt K) (s other : MRef) : GoM (MWorld K) MRef := do
  let result ← mapMake
  Hashed.update rt result s
  Hashed.update rt result other
  return result

/-- Loop of `Intersection`, `/repo/builtin_set.go:134-138`. -/
def Hashed.interLoop [GoEq K] [GoHash K] (rt : MapRt K) (large result : MRef) : List K → GoM (MWorld K) Unit
  | [] => pure ()
  | k :: ks => do
    let h ← Hashed.has large k
    if h then
      let _ ← Hashed.insert rt result k
      Hashed.interLoop rt large result ks
    else Hashed.interLoop rt large result ks

/-- `Intersection`, `/repo/builtin_set.go:131-140`. -/
def Hashed.intersection [GoEq K] [GoHash K] (rt : MapRt K) (s other : MRef) : GoM (MWorld K) MRef := do
  let result ← mapMake
  let sl ← orderSet s other
  let ks ← mapRange rt sl.1
  Hashed.interLoop rt sl.2 result ks
  return result

/-- Loop of `Difference`, `/repo/builtin_set.go:145-149`. -/
def Hashed.diffLoop [GoEq K] [GoHash K] (rt : MapRt K) (other result : MRef) : List K → GoM (MWorld K) Unit
  | [] => pure ()
  | k :: ks => do
    let h ← Hashed.has other k
    if !h then
      let _ ← Hashed.insert rt result k
      Hashed.diffLoop rt other result ks
    else Hashed.diffLoop rt other result ks

/-- `Difference`, `/repo/builtin_set.go:143-151`. -/
def Hashed.difference [GoEq K] [GoHash K] (rt : MapRt K) (s other : MRef) : GoM (MWorld K) MRef := do
  let result ← mapMake
  let ks ← mapRange rt s
  Hashed.diffLoop rt other result ks
  return result

/-- Loop of `IsDisjointOf`, `/repo/builtin_set.go:157-161`. -/
def Hashed.disjointLoop [GoEq K] [GoHash K] (large : MRef) : List K → GoM (MWorld K) Bool
  | [] => pure true
  | k :: ks => do
    let h ← Hashed.has large k
    if h then return false else Hashed.disjointLoop large ks

/-- `IsDisjointOf`, `/repo/builtin_set.go:155-163`. -/
def Hashed.isDisjointOf [GoEq K] [GoHash K] (rt : MapRt K) (s other : MRef) : GoM (MWorld K) Bool := do
  let sl ← orderSet s other
  let ks ← mapRange rt sl.1
  Hashed.disjointLoop sl.2 ks

/-- Loop of `IsSubsetOf`, `/repo/builtin_set.go:170-174`. -/
def Hashed.subsetLoop [GoEq K] [GoHash K] (other : MRef) : List K → GoM (MWorld K) Bool
  | [] => pure true
  | k :: ks => do
    let h ← Hashed.has other k
    if !h then return false else Hashed.subsetLoop other ks

/-- `IsSubsetOf`, `/repo/builtin_set.go:166-176`. -/
def Hashed.isSubsetOf [GoEq K] [GoHash K] (rt : MapRt K) (s other : MRef) : GoM (MWorld K) Bool := do
  let n ← bsLen s
  let m ← bsLen other
  if n > m then return false
  else do
    let ks ← mapRange rt s
    Hashed.subsetLoop other ks

/-- `IsSupersetOf`, `/repo/builtin_set.go:179-181`. -/
def Hashed.isSupersetOf [GoEq K] [GoHash K] (rt : MapRt K) (s other : MRef) : GoM (MWorld K) Bool := Hashed.isSubsetOf rt other s

end Stl4go
