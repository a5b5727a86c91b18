import Verif.Model.SkipList
/-!
# Model of `/repo/skiplist_set.go`

`SkipListSet[K]` is `SkipList[K, struct{}]` under another name (`/repo/skiplist_set.go:4`); `struct{}` is `Unit`. The conversion
`asMap` (`/repo/skiplist_set.go:108-110`) is the identity. Where the Go code calls `Insert`, the random number that would be drawn is an
extra argument.
-/
namespace Stl4go
variable {K σ : Type}

/-- `SkipListSet`, `/repo/skiplist_set.go:4`. -/
abbrev SLSet (K : Type) := SL K Unit

/-- `NewSkipListSet` and `NewSkipListSetFunc`, `/repo/skiplist_set.go:7-9,12-14`; the key order is passed to each operation. -/
def newSkipListSet : SLSet K := newSkipList

/-- `IsEmpty`, `/repo/skiplist_set.go:26-28`. -/
def SLSet.isEmpty (s : SLSet K) : Bool := SL.isEmpty s

/-- `Len`, `/repo/skiplist_set.go:31-33`. -/
def SLSet.length (s : SLSet K) : Int := SL.length s

/-- `Clear`, `/repo/skiplist_set.go:36-38`. -/
def SLSet.clear (s : SLSet K) : SLSet K := SL.clear s

/-- `Has`, `/repo/skiplist_set.go:41-43`. -/
def SLSet.has (impl : SLImpl K) (s : SLSet K) (key : K) : Outcome Bool := SL.has impl s key

/-- `Insert`, `/repo/skiplist_set.go:46-50`. -/
def SLSet.insert (impl : SLImpl K) (rnd : Nat) (s : SLSet K) (key : K) : Outcome (SLSet K × Bool) := do
  let oldLen := SLSet.length s
  let s ← SL.insert impl rnd s key ()
  return (s, decide (SLSet.length s > oldLen))

/-- Loop of `InsertN`, `/repo/skiplist_set.go:55-57`. -/
def SLSet.insertNLoop (impl : SLImpl K) : List (Nat × K) → SLSet K → Outcome (SLSet K)
  | [], s => .ret s
  | (rnd, key) :: keys, s => do
    let r ← SLSet.insert impl rnd s key
    SLSet.insertNLoop impl keys r.1

/-- `InsertN`, `/repo/skiplist_set.go:53-59`. -/
def SLSet.insertN (impl : SLImpl K) (s : SLSet K) (keys : List (Nat × K)) : Outcome (SLSet K × Int) := do
  let oldLen := SLSet.length s
  let s ← SLSet.insertNLoop impl keys s
  return (s, SLSet.length s - oldLen)

/-- `NewSkipListSetOf`, `/repo/skiplist_set.go:17-23`. -/
def newSkipListSetOf [ord : GoOrd K] (elements : List (Nat × K)) : Outcome (SLSet K) :=
  SLSet.insertNLoop (.ordered ord) elements newSkipListSet

/-- `Remove`, `/repo/skiplist_set.go:62-64`. -/
def SLSet.remove (impl : SLImpl K) (s : SLSet K) (key : K) : Outcome (SLSet K × Bool) := SL.remove impl s key

/-- Loop of `RemoveN`, `/repo/skiplist_set.go:69-71`. -/
def SLSet.removeNLoop (impl : SLImpl K) : List K → SLSet K → Outcome (SLSet K)
  | [], s => .ret s
  | key :: keys, s => do
    let r ← SLSet.remove impl s key
    SLSet.removeNLoop impl keys r.1

/-- `RemoveN`, `/repo/skiplist_set.go:67-73`. -/
def SLSet.removeN (impl : SLImpl K) (s : SLSet K) (keys : List K) : Outcome (SLSet K × Int) := do
  let oldLen := SLSet.length s
  let s ← SLSet.removeNLoop impl keys s
  return (s, oldLen - SLSet.length s)

/-- `ForEach`, `/repo/skiplist_set.go:83-85`. The callback may use the set itself. -/
def SLSet.forEach (f : SLSet K × σ → K → Outcome (SLSet K × σ)) (s : SLSet K × σ) : Outcome (SLSet K × σ) :=
  SL.forEach (fun s k _ => f s k) s

/-- `ForEachIf`, `/repo/skiplist_set.go:88-90`. -/
def SLSet.forEachIf (f : SLSet K × σ → K → Outcome ((SLSet K × σ) × Bool)) (s : SLSet K × σ) : Outcome (SLSet K × σ) :=
  SL.forEachIf (fun s k _ => f s k) s

/-- `Keys`, `/repo/skiplist_set.go:76-80`; `make` with a negative capacity would panic. -/
def SLSet.keys (s : SLSet K) : Outcome (List K) :=
  if SLSet.length s < 0 then .panic
  else do
    let r ← SLSet.forEach (fun s k => .ret (s.1, s.2 ++ [k])) (s, ([] : List K))
    return r.2

/-- `LowerBound`, `/repo/skiplist_set.go:93-95`. -/
def SLSet.lowerBoundIter (impl : SLImpl K) (s : SLSet K) (key : K) : Outcome SLIter := do
  let p ← SL.lowerBound impl s key
  return { node := p, stop := none }

/-- `UpperBound`, `/repo/skiplist_set.go:98-100`. -/
def SLSet.upperBoundIter (impl : SLImpl K) (s : SLSet K) (key : K) : Outcome SLIter := do
  let p ← SL.upperBound impl s key
  return { node := p, stop := none }

/-- `FindRange`, `/repo/skiplist_set.go:103-106`. -/
def SLSet.findRange (impl : SLImpl K) (s : SLSet K) (first last : K) : Outcome SLIter := do
  let a ← SL.lowerBound impl s first
  let b ← SL.upperBound impl s last
  return { node := a, stop := b }

/-- `skipListSetIterator.IsNotEnd`, `/repo/skiplist_set.go:114-116`. -/
def SLIter.setIsNotEnd (it : SLIter) : Bool := decide (it.node ≠ it.stop)

/-- `skipListSetIterator.MoveToNext`, `/repo/skiplist_set.go:118-120`. -/
def SLIter.setMoveToNext (s : SLSet K) (it : SLIter) : Outcome SLIter := do
  let n ← it.deref s
  let p ← idx n.next 0
  return { it with node := p }

/-- `skipListSetIterator.Value`, `/repo/skiplist_set.go:122-124`. -/
def SLIter.setValue (s : SLSet K) (it : SLIter) : Outcome K := do
  let n ← it.deref s
  return n.key

/-- The loop `for ; it.IsNotEnd(); it.MoveToNext() { use(it.Value()) }` of a client, over
`/repo/skiplist_set.go:114-124` (not in the repository). -/
def SLIter.setCollect (s : SLSet K) : (fuel : Nat) → SLIter → Outcome (List K)
  | 0, _ => .diverge
  | fuel + 1, it =>
    if it.setIsNotEnd then do
      let k ← it.setValue s
      let it ← it.setMoveToNext s
      let rest ← SLIter.setCollect s fuel it
      return k :: rest
    else .ret []

end Stl4go
