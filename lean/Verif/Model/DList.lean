import Verif.Model.Basic
/-!
# Model of `/repo/dlist.go`

Nodes live in a heap `List (DNode T)` that all lists of element type `T` share; a node pointer is an index, `none` is nil. A method runs
on the state `DS`: the shared heap and the `DList` struct it is called on. `length` is a mathematical integer (the code's `int` would
only wrap after 2^63 pushes). `String` (`/repo/dlist.go:45-47`) is in `Model/Strings`.
-/
namespace Stl4go
variable {T σ : Type}

/-- `dListNode`, `/repo/dlist.go:11-14`. -/
structure DNode (T : Type) where
  prev : Option Nat
  next : Option Nat
  value : T
deriving DecidableEq, Repr

/-- `DList`, `/repo/dlist.go:6-9`; the zero value `DList[T]{}` is the default. -/
structure DL where
  head : Option Nat := none
  length : Int := 0
deriving DecidableEq, Repr

/-- State of a method: the heap of nodes and the receiver (`/repo/dlist.go:6-14`). -/
structure DS (T : Type) where
  heap : List (DNode T)
  l : DL
deriving DecidableEq, Repr

/-! ## Memory access -/

/-- Load `*p` (`/repo/dlist.go:84`); a nil pointer panics. -/
def DS.load (p : Option Nat) : GoM (DS T) (DNode T) := fun s =>
  match p with
  | none => .panic s
  | some p =>
    match s.heap[p]? with
    | some n => .ok n s
    | none => .panic s

/-- `p.next = v` (`/repo/dlist.go:100`). -/
def DS.setNext (p v : Option Nat) : GoM (DS T) Unit := fun s =>
  match p with
  | none => .panic s
  | some p =>
    match s.heap[p]? with
    | some n => .ok () { s with heap := s.heap.set p { n with next := v } }
    | none => .panic s

/-- `p.prev = v` (`/repo/dlist.go:99`). -/
def DS.setPrev (p v : Option Nat) : GoM (DS T) Unit := fun s =>
  match p with
  | none => .panic s
  | some p =>
    match s.heap[p]? with
    | some n => .ok () { s with heap := s.heap.set p { n with prev := v } }
    | none => .panic s

/-- `*q = v` for a pointer `q = &p.value` (`/repo/dlist.go:67`). -/
def DS.setVal (p : Option Nat) (v : T) : GoM (DS T) Unit := fun s =>
  match p with
  | none => .panic s
  | some p =>
    match s.heap[p]? with
    | some n => .ok () { s with heap := s.heap.set p { n with value := v } }
    | none => .panic s

/-- `&dListNode[T]{prev, next, value}` (`/repo/dlist.go:98`). -/
def DS.alloc (n : DNode T) : GoM (DS T) (Option Nat) := fun s =>
  .ok (some s.heap.length) { s with heap := s.heap ++ [n] }

/-! ## Methods -/

/-- `ensureHead`, `/repo/dlist.go:210-216`. -/
def DL.ensureHead [GoZero T] : GoM (DS T) Unit := do
  let s ← GoM.get
  if s.l.head = none then
    let p ← DS.alloc { prev := none, next := none, value := GoZero.zero }
    GoM.modify (fun s => { s with l := { s.l with head := p } })
    DS.setPrev p p
    DS.setNext p p
  else pure ()

/-- `Clear`, `/repo/dlist.go:26-32`. -/
def DL.clear : GoM (DS T) Unit := do
  let s ← GoM.get
  if s.l.head ≠ none then do
    DS.setPrev s.l.head s.l.head
    DS.setNext s.l.head s.l.head
    GoM.modify (fun s => { s with l := { s.l with length := 0 } })
  else GoM.modify (fun s => { s with l := { s.l with length := 0 } })

/-- `Len`, `/repo/dlist.go:35-37`. -/
def DL.len : GoM (DS T) Int := do
  let s ← GoM.get
  return s.l.length

/-- `IsEmpty`, `/repo/dlist.go:40-42`. -/
def DL.isEmpty : GoM (DS T) Bool := do
  let s ← GoM.get
  return s.l.length == 0

/-- `Front`, `/repo/dlist.go:80-85`. -/
def DL.front : GoM (DS T) T := do
  if ← DL.isEmpty then GoM.panic
  else
    let s ← GoM.get
    let h ← DS.load s.l.head
    let n ← DS.load h.next
    return n.value

/-- `Back`, `/repo/dlist.go:88-93`. -/
def DL.back : GoM (DS T) T := do
  if ← DL.isEmpty then GoM.panic
  else
    let s ← GoM.get
    let h ← DS.load s.l.head
    let n ← DS.load h.prev
    return n.value

/-- `PushFront`, `/repo/dlist.go:96-102`. -/
def DL.pushFront [GoZero T] (val : T) : GoM (DS T) Unit := do
  DL.ensureHead
  let s ← GoM.get
  let h ← DS.load s.l.head
  let n ← DS.alloc { prev := s.l.head, next := h.next, value := val }
  let h ← DS.load s.l.head
  DS.setPrev h.next n
  DS.setNext s.l.head n
  GoM.modify (fun s => { s with l := { s.l with length := s.l.length + 1 } })

/-- `PushBack`, `/repo/dlist.go:105-111`. -/
def DL.pushBack [GoZero T] (val : T) : GoM (DS T) Unit := do
  DL.ensureHead
  let s ← GoM.get
  let h ← DS.load s.l.head
  let n ← DS.alloc { prev := h.prev, next := s.l.head, value := val }
  let h ← DS.load s.l.head
  DS.setNext h.prev n
  DS.setPrev s.l.head n
  GoM.modify (fun s => { s with l := { s.l with length := s.l.length + 1 } })

/-- `TryPopFront`, `/repo/dlist.go:132-145`. -/
def DL.tryPopFront [GoZero T] : GoM (DS T) (T × Bool) := do
  if ← DL.isEmpty then return (GoZero.zero, false)
  else
    let s ← GoM.get
    let h ← DS.load s.l.head
    let node := h.next
    let n ← DS.load node
    let val := n.value
    DS.setNext s.l.head n.next
    let h ← DS.load s.l.head
    DS.setPrev h.next s.l.head
    DS.setPrev node none
    DS.setNext node none
    GoM.modify (fun s => { s with l := { s.l with length := s.l.length - 1 } })
    return (val, true)

/-- `TryPopBack`, `/repo/dlist.go:148-161`. -/
def DL.tryPopBack [GoZero T] : GoM (DS T) (T × Bool) := do
  if ← DL.isEmpty then return (GoZero.zero, false)
  else
    let s ← GoM.get
    let h ← DS.load s.l.head
    let node := h.prev
    let n ← DS.load node
    let val := n.value
    let hp ← DS.load h.prev
    DS.setPrev s.l.head hp.prev
    let h ← DS.load s.l.head
    DS.setNext h.prev s.l.head
    DS.setPrev node none
    DS.setNext node none
    GoM.modify (fun s => { s with l := { s.l with length := s.l.length - 1 } })
    return (val, true)

/-- `PopFront`, `/repo/dlist.go:114-120`. -/
def DL.popFront [GoZero T] : GoM (DS T) T := do
  let r ← DL.tryPopFront
  if r.2 = false then GoM.panic else return r.1

/-- `PopBack`, `/repo/dlist.go:123-129`. -/
def DL.popBack [GoZero T] : GoM (DS T) T := do
  let r ← DL.tryPopBack
  if r.2 = false then GoM.panic else return r.1

/-- Loop of `DListOf`, `/repo/dlist.go:19-21`. -/
def DL.pushAll [GoZero T] : List T → GoM (DS T) Unit
  | [] => pure ()
  | v :: vs => do
    DL.pushBack v
    DL.pushAll vs

/-- `DListOf`, `/repo/dlist.go:17-23`, assigned to the receiver: a new struct, then a push for each value. -/
def DL.dlistOf [GoZero T] (vs : List T) : GoM (DS T) Unit := do
  GoM.modify (fun s => { s with l := {} })
  DL.pushAll vs

/-! ## Iteration -/

/-- `dlistIterator`, `/repo/dlist.go:49-52`: the receiver is `dl`. -/
structure DIter where
  node : Option Nat
deriving DecidableEq, Repr

/-- `Iterate`, `/repo/dlist.go:71-77`. -/
def DL.iterate : GoM (DS T) DIter := do
  let s ← GoM.get
  let node := s.l.head
  if node ≠ none then
    let h ← DS.load node
    return { node := h.next }
  else return { node := node }

/-- `IsNotEnd`, `/repo/dlist.go:54-56`. -/
def DIter.isNotEnd (it : DIter) : GoM (DS T) Bool := do
  let s ← GoM.get
  return decide (it.node ≠ s.l.head)

/-- `MoveToNext`, `/repo/dlist.go:58-60`. -/
def DIter.moveToNext (it : DIter) : GoM (DS T) DIter := do
  let n ← DS.load it.node
  return { node := n.next }

/-- `Value`, `/repo/dlist.go:62-64`; `Pointer` (`66-68`) is the address of the same field. -/
def DIter.value (it : DIter) : GoM (DS T) T := do
  let n ← DS.load it.node
  return n.value

/-- The client loop `for it := l.Iterate(); it.IsNotEnd(); it.MoveToNext() { use(it.Value()) }` over `/repo/dlist.go:54-77`
(not in the repository). -/
def DIter.collect : (fuel : Nat) → DIter → GoM (DS T) (List T)
  | 0, _ => GoM.diverge
  | fuel + 1, it => do
    if ← it.isNotEnd then
      let v ← it.value
      let it ← it.moveToNext
      let vs ← DIter.collect fuel it
      return v :: vs
    else return []

/-- The client loop that replaces every element through `it.Pointer()` (`/repo/dlist.go:66-68`; not in the repository). -/
def DIter.update (f : T → T) : (fuel : Nat) → DIter → GoM (DS T) Unit
  | 0, _ => GoM.diverge
  | fuel + 1, it => do
    if ← it.isNotEnd then
      let v ← it.value
      DS.setVal it.node (f v)
      let it ← it.moveToNext
      DIter.update f fuel it
    else pure ()

/-- Loop of `ForEachIf`, `/repo/dlist.go:179-183`; the callback has a state `σ` of its own. -/
def DL.forEachIfLoop (cb : σ → T → σ × Bool) : (fuel : Nat) → Option Nat → σ → GoM (DS T) σ
  | 0, _, _ => GoM.diverge
  | fuel + 1, n, t => do
    let s ← GoM.get
    if n ≠ s.l.head then
      let nd ← DS.load n
      let r := cb t nd.value
      if r.2 = false then return r.1
      else
        let nd ← DS.load n
        DL.forEachIfLoop cb fuel nd.next r.1
    else return t

/-- `ForEachIf`, `/repo/dlist.go:175-184`. -/
def DL.forEachIf (cb : σ → T → σ × Bool) (t : σ) : GoM (DS T) σ := do
  if ← DL.isEmpty then return t
  else
    let s ← GoM.get
    let h ← DS.load s.l.head
    DL.forEachIfLoop cb (s.heap.length + 1) h.next t

/-- Loop of `ForEach`, `/repo/dlist.go:168-170`. -/
def DL.forEachLoop (cb : σ → T → σ) : (fuel : Nat) → Option Nat → σ → GoM (DS T) σ
  | 0, _, _ => GoM.diverge
  | fuel + 1, n, t => do
    let s ← GoM.get
    if n ≠ s.l.head then
      let nd ← DS.load n
      let t := cb t nd.value
      let nd ← DS.load n
      DL.forEachLoop cb fuel nd.next t
    else return t

/-- `ForEach`, `/repo/dlist.go:164-171`. -/
def DL.forEach (cb : σ → T → σ) (t : σ) : GoM (DS T) σ := do
  if ← DL.isEmpty then return t
  else
    let s ← GoM.get
    let h ← DS.load s.l.head
    DL.forEachLoop cb (s.heap.length + 1) h.next t

/-- Loop of `ForEachMutable`, `/repo/dlist.go:191-193`; the callback reads and writes its element. -/
def DL.forEachMutableLoop (cb : σ → T → σ × T) : (fuel : Nat) → Option Nat → σ → GoM (DS T) σ
  | 0, _, _ => GoM.diverge
  | fuel + 1, n, t => do
    let s ← GoM.get
    if n ≠ s.l.head then
      let nd ← DS.load n
      let r := cb t nd.value
      DS.setVal n r.2
      let nd ← DS.load n
      DL.forEachMutableLoop cb fuel nd.next r.1
    else return t

/-- `ForEachMutable`, `/repo/dlist.go:187-194`. -/
def DL.forEachMutable (cb : σ → T → σ × T) (t : σ) : GoM (DS T) σ := do
  if ← DL.isEmpty then return t
  else
    let s ← GoM.get
    let h ← DS.load s.l.head
    DL.forEachMutableLoop cb (s.heap.length + 1) h.next t

/-- Loop of `ForEachMutableIf`, `/repo/dlist.go:202-206`. -/
def DL.forEachMutableIfLoop (cb : σ → T → σ × T × Bool) : (fuel : Nat) → Option Nat → σ → GoM (DS T) σ
  | 0, _, _ => GoM.diverge
  | fuel + 1, n, t => do
    let s ← GoM.get
    if n ≠ s.l.head then
      let nd ← DS.load n
      let r := cb t nd.value
      DS.setVal n r.2.1
      if r.2.2 = false then return r.1
      else
        let nd ← DS.load n
        DL.forEachMutableIfLoop cb fuel nd.next r.1
    else return t

/-- `ForEachMutableIf`, `/repo/dlist.go:198-207`. -/
def DL.forEachMutableIf (cb : σ → T → σ × T × Bool) (t : σ) : GoM (DS T) σ := do
  if ← DL.isEmpty then return t
  else
    let s ← GoM.get
    let h ← DS.load s.l.head
    DL.forEachMutableIfLoop cb (s.heap.length + 1) h.next t

end Stl4go
