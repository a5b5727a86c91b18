import Verif.Model.BuiltinSet
/-!
# Model of `/repo/builtin_set.go` with Go's rules for changing a map in a loop over it

As in `Model/BuiltinSet.lean`, but a loop `for k := range s` chooses its next key when it gets there, from the entries that the map has then and
that the loop has not produced yet. The rules of the language: an entry that was there when the loop started and is still there is produced before
the loop ends; an entry made during the loop may be produced or not; an entry is not produced twice. A key that is deleted and assigned again
gets a new entry. `String` is in `Model/Strings.lean`.
-/
namespace Stl4go
variable {K σ α β : Type}

/-- An entry of a map (`/repo/builtin_set.go:8`). The number tells apart an entry and a later one with an equal key. -/
structure Entry (K : Type) where
  id : Nat
  key : K

/-- All maps, the number of maps and entries made so far, and the number of choices made by the runtime (`/repo/builtin_set.go:8`). -/
structure LiveWorld (K : Type) where
  maps : Nat → List (Entry K)
  next : Nat
  ids : Nat
  steps : Nat

/-- The choices of the runtime: which of the entries it may produce comes next, if any (`/repo/builtin_set.go:29`); whether assigning replaces an
equal key (`/repo/builtin_set.go:43`). -/
structure LiveRt (K : Type) where
  pick : Nat → List (Entry K) → Nat
  replace : Bool

/-- Replace the contents of a map (`/repo/builtin_set.go:43`). -/
def LiveWorld.put (w : LiveWorld K) (i : Nat) (l : List (Entry K)) : LiveWorld K := { w with maps := fun j => if j = i then l else w.maps j }

/-- The entries of a map, none for nil (`/repo/builtin_set.go:8`). -/
def LiveWorld.entries (w : LiveWorld K) : MRef → List (Entry K)
  | none => []
  | some i => w.maps i

/-- `make(BuiltinSet[K])`, `/repo/builtin_set.go:12`, and `BuiltinSet[K]{}`, `/repo/builtin_set.go:117`. -/
def Live.make : GoM (LiveWorld K) MRef := fun w => .ok (some w.next) { w.put w.next [] with next := w.next + 1 }

/-- `len(s)`, `/repo/builtin_set.go:24`. -/
def Live.count (s : MRef) : GoM (LiveWorld K) Int := fun w => .ok (w.entries s).length w

/-- `_, ok := s[k]`, `/repo/builtin_set.go:36`. -/
def Live.contains [GoEq K] (s : MRef) (k : K) : GoM (LiveWorld K) Bool := fun w => .ok ((w.entries s).any (fun e => GoEq.eq k e.key)) w

/-- The map variable `i` after an assignment (`/repo/builtin_set.go:43`). -/
def LiveWorld.assign [GoEq K] (replace : Bool) (w : LiveWorld K) (i : Nat) (k : K) : LiveWorld K :=
  if (w.maps i).any (fun e => GoEq.eq k e.key) then
    w.put i ((w.maps i).map (fun e => if replace && GoEq.eq k e.key then { e with key := k } else e))
  else { w.put i (w.maps i ++ [⟨w.ids, k⟩]) with ids := w.ids + 1 }

/-- `s[k] = struct{}{}`, `/repo/builtin_set.go:43`: panics for a nil map. -/
def Live.set [GoEq K] (rt : LiveRt K) (s : MRef) (k : K) : GoM (LiveWorld K) Unit :=
  match s with
  | none => GoM.panic
  | some i => GoM.modify (fun w => w.assign rt.replace i k)

/-- `delete(s, k)`, `/repo/builtin_set.go:30`: no effect on a nil map. -/
def Live.del [GoEq K] (s : MRef) (k : K) : GoM (LiveWorld K) Unit :=
  match s with
  | none => pure ()
  | some i => GoM.modify (fun w => w.put i ((w.maps i).filter (fun e => !GoEq.eq k e.key)))

/-- The next entry of a loop over `s` that started when `b` entries had been made and has produced those in `seen`
(`/repo/builtin_set.go:29`). -/
def Live.nextEntry (rt : LiveRt K) (s : MRef) (b : Nat) (seen : List Nat) : GoM (LiveWorld K) (Option (Entry K)) := fun w =>
  let open_ := (w.entries s).filter (fun e => !seen.contains e.id)
  .ok (match open_[rt.pick w.steps open_]? with
      | some e => some e
      | none => open_.find? (fun e => decide (e.id < b)))
    { w with steps := w.steps + 1 }

/-- A loop over `s` with a variable of type `σ`; the body says whether to go on (`/repo/builtin_set.go:96-100`). -/
def Live.rangeLoop (rt : LiveRt K) (s : MRef) (b : Nat) (body : σ → K → GoM (LiveWorld K) (σ × Bool)) :
    (fuel : Nat) → List Nat → σ → GoM (LiveWorld K) σ
  | 0, _, _ => GoM.diverge
  | fuel + 1, seen, t => do
    let e ← Live.nextEntry rt s b seen
    match e with
    | none => pure t
    | some e => do
      let r ← body t e.key
      if r.2 then Live.rangeLoop rt s b body fuel (e.id :: seen) r.1 else pure r.1

/-- `for k := range s`, `/repo/builtin_set.go:29`: at most `extra` steps more than there are entries when it starts. -/
def Live.range (rt : LiveRt K) (extra : Nat) (s : MRef) (body : σ → K → GoM (LiveWorld K) (σ × Bool)) (t : σ) : GoM (LiveWorld K) σ := fun w =>
  Live.rangeLoop rt s w.ids body ((w.entries s).length + extra + 1) [] t w

/-- Loop over the argument of `InsertN`, `/repo/builtin_set.go:50-52`. -/
def Live.setAll [GoEq K] (rt : LiveRt K) (s : MRef) : (ks : List K) → GoM (LiveWorld K) Unit
  | [] => pure ()
  | k :: ks => do
    Live.set rt s k
    Live.setAll rt s ks

/-- Loop over the argument of `RemoveN`, `/repo/builtin_set.go:72-74`. -/
def Live.delAll [GoEq K] (s : MRef) : (ks : List K) → GoM (LiveWorld K) Unit
  | [] => pure ()
  | k :: ks => do
    Live.del s k
    Live.delAll s ks

/-- `InsertN`, `/repo/builtin_set.go:48-54`. -/
def Live.insertN [GoEq K] (rt : LiveRt K) (s : MRef) (ks : List K) : GoM (LiveWorld K) Int := do
  let oldLen ← Live.count s
  Live.setAll rt s ks
  let n ← Live.count s
  return n - oldLen

/-- `SetOf`, `/repo/builtin_set.go:11-15`. -/
def Live.setOf [GoEq K] (rt : LiveRt K) (ks : List K) : GoM (LiveWorld K) MRef := do
  let s ← Live.make
  let _ ← Live.insertN rt s ks
  return s

/-- `IsEmpty`, `/repo/builtin_set.go:18-20`. -/
def Live.isEmpty (s : MRef) : GoM (LiveWorld K) Bool := do
  let n ← Live.count s
  return decide (n = 0)

/-- `Len`, `/repo/builtin_set.go:23-25`. -/
def Live.len (s : MRef) : GoM (LiveWorld K) Int := Live.count s

/-- `Clear`, `/repo/builtin_set.go:28-32`. -/
def Live.clear [GoEq K] (rt : LiveRt K) (extra : Nat) (s : MRef) : GoM (LiveWorld K) Unit :=
  Live.range rt extra s (fun _ k => do Live.del s k; return ((), true)) ()

/-- `Has`, `/repo/builtin_set.go:35-38`. -/
def Live.has [GoEq K] (s : MRef) (k : K) : GoM (LiveWorld K) Bool := Live.contains s k

/-- `Insert`, `/repo/builtin_set.go:41-45`. -/
def Live.insert [GoEq K] (rt : LiveRt K) (s : MRef) (k : K) : GoM (LiveWorld K) Bool := do
  let oldLen ← Live.count s
  Live.set rt s k
  let n ← Live.count s
  return decide (n > oldLen)

/-- `Remove`, `/repo/builtin_set.go:57-61`. -/
def Live.remove [GoEq K] (s : MRef) (k : K) : GoM (LiveWorld K) Bool := do
  let ok ← Live.contains s k
  Live.del s k
  return ok

/-- `Delete`, `/repo/builtin_set.go:65-67`. -/
def Live.delete [GoEq K] (s : MRef) (k : K) : GoM (LiveWorld K) Unit := Live.del s k

/-- `RemoveN`, `/repo/builtin_set.go:70-76`. -/
def Live.removeN [GoEq K] (s : MRef) (ks : List K) : GoM (LiveWorld K) Int := do
  let oldLen ← Live.count s
  Live.delAll s ks
  let n ← Live.count s
  return oldLen - n

/-- `Keys`, `/repo/builtin_set.go:79-85`; the elements of the new slice. -/
def Live.keys (rt : LiveRt K) (extra : Nat) (s : MRef) : GoM (LiveWorld K) (List K) :=
  Live.range rt extra s (fun keys k => pure (keys ++ [k], true)) []

/-- `Update`, `/repo/builtin_set.go:109-113`. -/
def Live.update [GoEq K] (rt : LiveRt K) (extra : Nat) (s other : MRef) : GoM (LiveWorld K) Unit :=
  Live.range rt extra other (fun _ k => do Live.set rt s k; return ((), true)) ()

/-- `Union`, `/repo/builtin_set.go:116-121`. -/
def Live.union [GoEq K] (rt : LiveRt K) (extra : Nat) (s other : MRef) : GoM (LiveWorld K) MRef := do
  let result ← Live.make
  Live.update rt extra result s
  Live.update rt extra result other
  return result

/-- `orderSet`, `/repo/builtin_set.go:123-128`. -/
def Live.orderSet (a b : MRef) : GoM (LiveWorld K) (MRef × MRef) := do
  let n ← Live.len a
  let m ← Live.len b
  if n < m then return (a, b) else return (b, a)

/-- `Intersection`, `/repo/builtin_set.go:131-140`. -/
def Live.intersection [GoEq K] (rt : LiveRt K) (extra : Nat) (s other : MRef) : GoM (LiveWorld K) MRef := do
  let result ← Live.make
  let sl ← Live.orderSet s other
  Live.range rt extra sl.1 (fun _ k => do
    let h ← Live.has sl.2 k
    if h then
      let _ ← Live.insert rt result k
      return ((), true)
    else return ((), true)) ()
  return result

/-- `Difference`, `/repo/builtin_set.go:143-151`. -/
def Live.difference [GoEq K] (rt : LiveRt K) (extra : Nat) (s other : MRef) : GoM (LiveWorld K) MRef := do
  let result ← Live.make
  Live.range rt extra s (fun _ k => do
    let h ← Live.has other k
    if !h then
      let _ ← Live.insert rt result k
      return ((), true)
    else return ((), true)) ()
  return result

/-- `IsDisjointOf`, `/repo/builtin_set.go:155-163`; the variable of the loop is the value returned. -/
def Live.isDisjointOf [GoEq K] (rt : LiveRt K) (extra : Nat) (s other : MRef) : GoM (LiveWorld K) Bool := do
  let sl ← Live.orderSet s other
  Live.range rt extra sl.1 (fun _ k => do
    let h ← Live.has sl.2 k
    if h then return (false, false) else return (true, true)) true

/-- `IsSubsetOf`, `/repo/builtin_set.go:166-176`. -/
def Live.isSubsetOf [GoEq K] (rt : LiveRt K) (extra : Nat) (s other : MRef) : GoM (LiveWorld K) Bool := do
  let n ← Live.len s
  let m ← Live.len other
  if n > m then return false
  else Live.range rt extra s (fun _ k => do
    let h ← Live.has other k
    if !h then return (false, false) else return (true, true)) true

/-- `IsSupersetOf`, `/repo/builtin_set.go:179-181`. -/
def Live.isSupersetOf [GoEq K] (rt : LiveRt K) (extra : Nat) (s other : MRef) : GoM (LiveWorld K) Bool := Live.isSubsetOf rt extra other s

/-- `ForEach`, `/repo/builtin_set.go:88-92`, with a callback that may use all sets and has a state `σ`. -/
def Live.forEach (rt : LiveRt K) (extra : Nat) (s : MRef) (cb : σ → K → GoM (LiveWorld K) σ) (t : σ) : GoM (LiveWorld K) σ :=
  Live.range rt extra s (fun t k => do let t ← cb t k; return (t, true)) t

/-- `ForEachIf`, `/repo/builtin_set.go:95-101`, likewise. -/
def Live.forEachIf (rt : LiveRt K) (extra : Nat) (s : MRef) (cb : σ → K → GoM (LiveWorld K) (σ × Bool)) (t : σ) : GoM (LiveWorld K) σ :=
  Live.range rt extra s cb t

end Stl4go
