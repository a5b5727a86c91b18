import Verif.Model.Basic
/-!
# Model of `/repo/slist.go`

Nodes live in a heap `List (LNode T)` shared by all lists of element type `T`; a node pointer is an index, `none` is nil. A method runs on
the state `LS`: the heap and the `SList` struct it is called on. `length` is a mathematical integer. Copies of the struct, which share
nodes, are in `Spec/Copies`.
-/
namespace Stl4go
variable {T σ : Type}

/-- `sListNode`, `/repo/slist.go:10-13`. -/
structure LNode (T : Type) where
  next : Option Nat
  value : T
deriving DecidableEq, Repr

/-- `SList`, `/repo/slist.go:4-8`; the zero value `SList[T]{}` is the default. -/
structure LL where
  head : Option Nat := none
  tail : Option Nat := none
  length : Int := 0
deriving DecidableEq, Repr

/-- State of a method: the heap of nodes and the receiver (`/repo/slist.go:4-13`). -/
structure LS (T : Type) where
  heap : List (LNode T)
  l : LL
deriving DecidableEq, Repr

/-! ## Memory access -/

/-- Load `*p` (`/repo/slist.go:46`); a nil pointer panics. -/
def LS.load (p : Option Nat) : GoM (LS T) (LNode T) := fun s =>
  match p with
  | none => .panic s
  | some p =>
    match s.heap[p]? with
    | some n => .ok n s
    | none => .panic s

/-- `p.next = v` (`/repo/slist.go:71`). -/
def LS.setNext (p v : Option Nat) : GoM (LS T) Unit := fun s =>
  match p with
  | none => .panic s
  | some p =>
    match s.heap[p]? with
    | some n => .ok () { s with heap := s.heap.set p { n with next := v } }
    | none => .panic s

/-- `*q = v` for a pointer `q = &p.value` (`/repo/slist.go:190`). -/
def LS.setVal (p : Option Nat) (v : T) : GoM (LS T) Unit := fun s =>
  match p with
  | none => .panic s
  | some p =>
    match s.heap[p]? with
    | some n => .ok () { s with heap := s.heap.set p { n with value := v } }
    | none => .panic s

/-- `node := sListNode[T]{next, value}` whose address escapes (`/repo/slist.go:59`). -/
def LS.alloc (n : LNode T) : GoM (LS T) (Option Nat) := fun s =>
  .ok (some s.heap.length) { s with heap := s.heap ++ [n] }

/-! ## Methods -/

/-- `IsEmpty`, `/repo/slist.go:25-27`. -/
def LL.isEmpty : GoM (LS T) Bool := do
  let s ← GoM.get
  return s.l.length == 0

/-- `Len`, `/repo/slist.go:30-32`. -/
def LL.len : GoM (LS T) Int := do
  let s ← GoM.get
  return s.l.length

/-- `Clear`, `/repo/slist.go:35-39`. -/
def LL.clear : GoM (LS T) Unit :=
  GoM.modify (fun s => { s with l := { head := none, tail := none, length := 0 } })

/-- `Front`, `/repo/slist.go:42-47`. -/
def LL.front : GoM (LS T) T := do
  if ← LL.isEmpty then GoM.panic
  else
    let s ← GoM.get
    let n ← LS.load s.l.head
    return n.value

/-- `Back`, `/repo/slist.go:50-55`. -/
def LL.back : GoM (LS T) T := do
  if ← LL.isEmpty then GoM.panic
  else
    let s ← GoM.get
    let n ← LS.load s.l.tail
    return n.value

/-- `PushFront`, `/repo/slist.go:58-65`. -/
def LL.pushFront (v : T) : GoM (LS T) Unit := do
  let s ← GoM.get
  let node ← LS.alloc { next := s.l.head, value := v }
  GoM.modify (fun s => { s with l := { s.l with head := node } })
  GoM.modify (fun s => if s.l.tail = none then { s with l := { s.l with tail := node } } else s)
  GoM.modify (fun s => { s with l := { s.l with length := s.l.length + 1 } })

/-- The first `if` of `PushBack`, `/repo/slist.go:70-72`. -/
def LL.linkTail (node : Option Nat) : GoM (LS T) Unit := do
  let s ← GoM.get
  if s.l.tail ≠ none then LS.setNext s.l.tail node else pure ()

/-- `PushBack`, `/repo/slist.go:68-78`. -/
def LL.pushBack (v : T) : GoM (LS T) Unit := do
  let node ← LS.alloc { next := none, value := v }
  LL.linkTail node
  GoM.modify (fun s => { s with l := { s.l with tail := node } })
  GoM.modify (fun s => if s.l.head = none then { s with l := { s.l with head := node } } else s)
  GoM.modify (fun s => { s with l := { s.l with length := s.l.length + 1 } })

/-- `PopFront`, `/repo/slist.go:82-94`. -/
def LL.popFront : GoM (LS T) T := do
  if ← LL.isEmpty then GoM.panic
  else
    let s ← GoM.get
    let node := s.l.head
    let n ← LS.load node
    GoM.modify (fun s => { s with l := { s.l with head := n.next } })
    GoM.modify (fun s => if s.l.head = none then { s with l := { s.l with tail := none } } else s)
    GoM.modify (fun s => { s with l := { s.l with length := s.l.length - 1 } })
    let n ← LS.load node
    return n.value

/-- Loop of `Reverse`, `/repo/slist.go:99-107`: returns the final `head` and `tail`. -/
def LL.reverseLoop : (fuel : Nat) → (node head tail : Option Nat) → GoM (LS T) (Option Nat × Option Nat)
  | 0, _, _, _ => GoM.diverge
  | fuel + 1, node, head, tail =>
    if node = none then pure (head, tail)
    else do
      let n ← LS.load node
      LS.setNext node head
      LL.reverseLoop fuel n.next node (if tail = none then node else tail)

/-- `Reverse`, `/repo/slist.go:97-110`. -/
def LL.reverse : GoM (LS T) Unit := do
  let s ← GoM.get
  let r ← LL.reverseLoop (s.heap.length + 1) s.l.head none none
  GoM.modify (fun s => { s with l := { s.l with head := r.1, tail := r.2 } })

/-- Loop of `Values`, `/repo/slist.go:115-118`; storing past the end of the new slice panics. -/
def LL.valuesLoop : (fuel : Nat) → (node : Option Nat) → (i : Nat) → List T → GoM (LS T) (List T)
  | 0, _, _, _ => GoM.diverge
  | fuel + 1, node, i, s =>
    if node = none then pure s
    else do
      let n ← LS.load node
      if i < s.length then LL.valuesLoop fuel n.next (i + 1) (s.set i n.value)
      else GoM.panic

/-- `Values`, `/repo/slist.go:113-120`; `make` with a negative length panics. -/
def LL.values [GoZero T] : GoM (LS T) (List T) := do
  let n ← LL.len
  if n < 0 then GoM.panic
  else
    let s ← GoM.get
    LL.valuesLoop (s.heap.length + 1) s.l.head 0 (List.replicate n.toNat GoZero.zero)

/-- Loop of `SListOf`, `/repo/slist.go:18-20`. -/
def LL.pushAll : List T → GoM (LS T) Unit
  | [] => pure ()
  | v :: vs => do
    LL.pushBack v
    LL.pushAll vs

/-- `SListOf`, `/repo/slist.go:16-22`, assigned to the receiver. -/
def LL.slistOf (vs : List T) : GoM (LS T) Unit := do
  GoM.modify (fun s => { s with l := {} })
  LL.pushAll vs

/-! ## Iteration -/

/-- Loop of `ForEach`, `/repo/slist.go:135-137`; the callback has a state `σ` of its own. -/
def LL.forEachLoop (cb : σ → T → σ) : (fuel : Nat) → Option Nat → σ → GoM (LS T) σ
  | 0, _, _ => GoM.diverge
  | fuel + 1, node, t =>
    if node = none then pure t
    else do
      let n ← LS.load node
      let t := cb t n.value
      let n ← LS.load node
      LL.forEachLoop cb fuel n.next t

/-- `ForEach`, `/repo/slist.go:134-138`. -/
def LL.forEach (cb : σ → T → σ) (t : σ) : GoM (LS T) σ := do
  let s ← GoM.get
  LL.forEachLoop cb (s.heap.length + 1) s.l.head t

/-- Loop of `ForEachIf`, `/repo/slist.go:143-147`. -/
def LL.forEachIfLoop (cb : σ → T → σ × Bool) : (fuel : Nat) → Option Nat → σ → GoM (LS T) σ
  | 0, _, _ => GoM.diverge
  | fuel + 1, node, t =>
    if node = none then pure t
    else do
      let n ← LS.load node
      let r := cb t n.value
      if r.2 = false then pure r.1
      else do
        let n ← LS.load node
        LL.forEachIfLoop cb fuel n.next r.1

/-- `ForEachIf`, `/repo/slist.go:142-148`. -/
def LL.forEachIf (cb : σ → T → σ × Bool) (t : σ) : GoM (LS T) σ := do
  let s ← GoM.get
  LL.forEachIfLoop cb (s.heap.length + 1) s.l.head t

/-- Loop of `ForEachMutable`, `/repo/slist.go:152-154`; the callback reads and writes its element. -/
def LL.forEachMutableLoop (cb : σ → T → σ × T) : (fuel : Nat) → Option Nat → σ → GoM (LS T) σ
  | 0, _, _ => GoM.diverge
  | fuel + 1, node, t =>
    if node = none then pure t
    else do
      let n ← LS.load node
      let r := cb t n.value
      LS.setVal node r.2
      let n ← LS.load node
      LL.forEachMutableLoop cb fuel n.next r.1

/-- `ForEachMutable`, `/repo/slist.go:151-155`. -/
def LL.forEachMutable (cb : σ → T → σ × T) (t : σ) : GoM (LS T) σ := do
  let s ← GoM.get
  LL.forEachMutableLoop cb (s.heap.length + 1) s.l.head t

/-- Loop of `ForEachMutableIf`, `/repo/slist.go:160-164`. -/
def LL.forEachMutableIfLoop (cb : σ → T → σ × T × Bool) : (fuel : Nat) → Option Nat → σ → GoM (LS T) σ
  | 0, _, _ => GoM.diverge
  | fuel + 1, node, t =>
    if node = none then pure t
    else do
      let n ← LS.load node
      let r := cb t n.value
      LS.setVal node r.2.1
      if r.2.2 = false then pure r.1
      else do
        let n ← LS.load node
        LL.forEachMutableIfLoop cb fuel n.next r.1

/-- `ForEachMutableIf`, `/repo/slist.go:159-165`. -/
def LL.forEachMutableIf (cb : σ → T → σ × T × Bool) (t : σ) : GoM (LS T) σ := do
  let s ← GoM.get
  LL.forEachMutableIfLoop cb (s.heap.length + 1) s.l.head t

/-- `sListIterator`, `/repo/slist.go:173-175`. -/
structure LIter where
  node : Option Nat
deriving DecidableEq, Repr

/-- `Iterate`, `/repo/slist.go:168-171`. -/
def LL.iterate : GoM (LS T) LIter := do
  let s ← GoM.get
  return { node := s.l.head }

/-- `IsNotEnd`, `/repo/slist.go:177-179`. -/
def LIter.isNotEnd (it : LIter) : Bool := decide (it.node ≠ none)

/-- `MoveToNext`, `/repo/slist.go:181-183`. -/
def LIter.moveToNext (it : LIter) : GoM (LS T) LIter := do
  let n ← LS.load it.node
  return { node := n.next }

/-- `Value`, `/repo/slist.go:185-187`; `Pointer` (`/repo/slist.go:189-191`) is the address of the same field. -/
def LIter.value (it : LIter) : GoM (LS T) T := do
  let n ← LS.load it.node
  return n.value

/-- The client loop `for it := l.Iterate(); it.IsNotEnd(); it.MoveToNext() { use(it.Value()) }` over `/repo/slist.go:168-187`
(not in the repository). -/
def LIter.collect : (fuel : Nat) → LIter → GoM (LS T) (List T)
  | 0, _ => GoM.diverge
  | fuel + 1, it =>
    if it.isNotEnd = true then do
      let v ← it.value
      let it ← it.moveToNext
      let vs ← LIter.collect fuel it
      return v :: vs
    else pure []

/-- The client loop that replaces every element through `it.Pointer()` (`/repo/slist.go:189-191`; not in the repository). -/
def LIter.update (f : T → T) : (fuel : Nat) → LIter → GoM (LS T) Unit
  | 0, _ => GoM.diverge
  | fuel + 1, it =>
    if it.isNotEnd = true then do
      let v ← it.value
      LS.setVal it.node (f v)
      let it ← it.moveToNext
      LIter.update f fuel it
    else pure ()

end Stl4go
