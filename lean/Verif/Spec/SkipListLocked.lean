import Verif.Model.SkipListLocked
import Verif.Spec.SkipListThreads
import Verif.Spec.Locked
/-! # Calls behind a lock, on finite maps -/
namespace Stl4go
variable {K V : Type}

/-- What a call returns, and the entries afterwards, if the entries are `m`, in increasing order of keys. -/
def LKCall.spec (less : K → K → Bool) (m : List (K × V)) : LKCall K V → SGRet K V × List (K × V)
  | .insert _ k v => (.unit, SMap.insert less k v m)
  | .remove k => (.flag (SMap.find less k m).isSome, SMap.erase less k m)
  | .clear => (.unit, [])
  | .other c => c.spec less m

/-- What calls made one after another return. -/
def LKCall.results (less : K → K → Bool) : List (K × V) → List (LKCall K V) → List (SGRet K V)
  | _, [] => []
  | m, c :: cs => (c.spec less m).1 :: LKCall.results less (c.spec less m).2 cs

/-- The entries after them. -/
def LKCall.after (less : K → K → Bool) (m : List (K × V)) (cs : List (LKCall K V)) : List (K × V) := cs.foldl (fun m c => (c.spec less m).2) m

end Stl4go
