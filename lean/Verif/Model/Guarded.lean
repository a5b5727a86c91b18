import Verif.Model.Locked
import Verif.Model.DListQueue
import Verif.Model.Stack
/-!
# Queues and stacks access by access

The methods of `DListQueue` (those of the `DList` in it) and of `Stack` split into accesses to the memory that goroutines may share: one field of a node, `l.head`, `l.length`, the field `elements`, one element of an array.
`l.length++` is a read and a write. A slice header is read and written as one access here; the code needs three, between which other goroutines may run as well, so without a lock there are more schedules than these.
Where the language leaves open which of two variables is read first, this is one of the orders.
-/
namespace Stl4go
variable {T σ α : Type}

/-- One access (`/repo/dlist.go:84`, for example): `m` as a whole. -/
def Steps.prim (m : GoM σ α) : Steps σ α :=
  .act (fun s => match m s with
    | .ok a _ => .ret a
    | .panic _ => .panic
    | .diverge => .diverge) (fun s => match m s with
    | .ok _ s' => s'
    | .panic s' => s'
    | .diverge => s)

/-! ## DListQueue -/

/-- `l.head` (`/repo/dlist.go:84`). -/
def acHead : Steps (DS T) (Option Nat) := .prim (do let s ← GoM.get; return s.l.head)
/-- `l.head = p` (`/repo/dlist.go:212`). -/
def acSetHead (p : Option Nat) : Steps (DS T) Unit := .prim (GoM.modify (fun s => { s with l := { s.l with head := p } }))
/-- `l.length` (`/repo/dlist.go:36`). -/
def acLength : Steps (DS T) Int := .prim (do let s ← GoM.get; return s.l.length)
/-- `l.length = n` (`/repo/dlist.go:31`). -/
def acSetLength (n : Int) : Steps (DS T) Unit := .prim (GoM.modify (fun s => { s with l := { s.l with length := n } }))
/-- `p.next` (`/repo/dlist.go:84`). -/
def acNext (p : Option Nat) : Steps (DS T) (Option Nat) := .prim (do let n ← DS.load p; return n.next)
/-- `p.prev` (`/repo/dlist.go:92`). -/
def acPrev (p : Option Nat) : Steps (DS T) (Option Nat) := .prim (do let n ← DS.load p; return n.prev)
/-- `p.value` (`/repo/dlist.go:84`). -/
def acValue (p : Option Nat) : Steps (DS T) T := .prim (do let n ← DS.load p; return n.value)
/-- `p.next = v` (`/repo/dlist.go:100`). -/
def acSetNext (p v : Option Nat) : Steps (DS T) Unit := .prim (DS.setNext p v)
/-- `p.prev = v` (`/repo/dlist.go:99`). -/
def acSetPrev (p v : Option Nat) : Steps (DS T) Unit := .prim (DS.setPrev p v)
/-- A new node (`/repo/dlist.go:98`). -/
def acAlloc (n : DNode T) : Steps (DS T) (Option Nat) := .prim (DS.alloc n)

/-- `ensureHead`, `/repo/dlist.go:210-216`. -/
def acEnsureHead [GoZero T] : Steps (DS T) Unit := do
  let h ← acHead
  if h = none then do
    let p ← acAlloc { prev := none, next := none, value := GoZero.zero }
    acSetHead p
    let h ← acHead
    let h' ← acHead
    acSetPrev h h'
    let h ← acHead
    let h' ← acHead
    acSetNext h h'
  else .ret ()

/-- `Clear`, `/repo/dlist.go:26-32`. -/
def acClear : Steps (DS T) Unit := do
  let h ← acHead
  if h ≠ none then do
    let h ← acHead
    let h' ← acHead
    acSetPrev h h'
    let h ← acHead
    let h' ← acHead
    acSetNext h h'
    acSetLength 0
  else acSetLength 0

/-- `IsEmpty`, `/repo/dlist.go:40-42`. -/
def acIsEmpty : Steps (DS T) Bool := do
  let n ← acLength
  .ret (n == 0)

/-- `Front`, `/repo/dlist.go:80-85`. -/
def acFront : Steps (DS T) T := do
  let e ← acIsEmpty
  if e then .panic
  else do
    let h ← acHead
    let p ← acNext h
    acValue p

/-- `Back`, `/repo/dlist.go:88-93`. -/
def acBack : Steps (DS T) T := do
  let e ← acIsEmpty
  if e then .panic
  else do
    let h ← acHead
    let p ← acPrev h
    acValue p

/-- `l.length++` and `l.length--` (`/repo/dlist.go:101,143`). -/
def acCount (d : Int) : Steps (DS T) Unit := do
  let n ← acLength
  acSetLength (n + d)

/-- `PushFront`, `/repo/dlist.go:96-102`. -/
def acPushFront [GoZero T] (val : T) : Steps (DS T) Unit := do
  acEnsureHead
  let h ← acHead
  let h' ← acHead
  let x ← acNext h'
  let n ← acAlloc { prev := h, next := x, value := val }
  let h ← acHead
  let x ← acNext h
  acSetPrev x n
  let h ← acHead
  acSetNext h n
  acCount 1

/-- `PushBack`, `/repo/dlist.go:105-111`. -/
def acPushBack [GoZero T] (val : T) : Steps (DS T) Unit := do
  acEnsureHead
  let h ← acHead
  let x ← acPrev h
  let h' ← acHead
  let n ← acAlloc { prev := x, next := h', value := val }
  let h ← acHead
  let x ← acPrev h
  acSetNext x n
  let h ← acHead
  acSetPrev h n
  acCount 1

/-- `TryPopFront`, `/repo/dlist.go:132-145`. -/
def acTryPopFront [GoZero T] : Steps (DS T) (T × Bool) := do
  let e ← acIsEmpty
  if e then .ret (GoZero.zero, false)
  else do
    let h ← acHead
    let node ← acNext h
    let val ← acValue node
    let h ← acHead
    let x ← acNext node
    acSetNext h x
    let h ← acHead
    let x ← acNext h
    let h ← acHead
    acSetPrev x h
    acSetPrev node none
    acSetNext node none
    acCount (-1)
    .ret (val, true)

/-- `TryPopBack`, `/repo/dlist.go:148-161`. -/
def acTryPopBack [GoZero T] : Steps (DS T) (T × Bool) := do
  let e ← acIsEmpty
  if e then .ret (GoZero.zero, false)
  else do
    let h ← acHead
    let node ← acPrev h
    let val ← acValue node
    let h ← acHead
    let h' ← acHead
    let x ← acPrev h'
    let y ← acPrev x
    acSetPrev h y
    let h ← acHead
    let x ← acPrev h
    let h ← acHead
    acSetNext x h
    acSetPrev node none
    acSetNext node none
    acCount (-1)
    .ret (val, true)

/-- `PopFront`, `/repo/dlist.go:114-120`. -/
def acPopFront [GoZero T] : Steps (DS T) T := do
  let r ← acTryPopFront
  if r.2 = false then .panic else .ret r.1

/-- `PopBack`, `/repo/dlist.go:123-129`. -/
def acPopBack [GoZero T] : Steps (DS T) T := do
  let r ← acTryPopBack
  if r.2 = false then .panic else .ret r.1

/-! ## Stack -/

/-- `s.elements` (`/repo/stack.go:21`). -/
def acElems : Steps (VS T) Sl := .prim VS.recv
/-- `s.elements = e` (`/repo/stack.go:36`). -/
def acSetElems (e : Sl) : Steps (VS T) Unit := .prim (VS.assign e)
/-- `e[i]` (`/repo/stack.go:50`). -/
def acElem (e : Sl) (i : Int) : Steps (VS T) T := .prim (VS.on (e.get i))
/-- `e[i:j]`, which accesses nothing but may panic (`/repo/stack.go:51`). -/
def acSlice (e : Sl) (i j : Int) : Steps (VS T) Sl := .prim (VS.on (e.slice i j))

/-- `NewStackCap`, `/repo/stack.go:15-17`, assigned to the stack. -/
def acStkNewCap [GoZero T] (capacity : Int) : Steps (VS T) Unit := do
  let e ← .prim (VS.on (Sl.make 0 capacity))
  acSetElems e

/-- `Clear`, `/repo/stack.go:35-37`. -/
def acStkClear : Steps (VS T) Unit := do
  let e ← acElems
  let e ← acSlice e 0 0
  acSetElems e

/-- `Push`, `/repo/stack.go:40-42`: `append` writes to the array, or to a new one. -/
def acStkPush [GoZero T] (grow : Nat → Nat → Nat) (t : T) : Steps (VS T) Unit := do
  let e ← acElems
  let e ← .prim (VS.on (e.append grow [t]))
  acSetElems e

/-- The last two lines but one of `TryPop`, `/repo/stack.go:50-51`, and all but the last of `Pop`, `/repo/stack.go:59-60`. -/
def acStkTake : Steps (VS T) T := do
  let e ← acElems
  let e' ← acElems
  let t ← acElem e (e'.len - 1)
  let e ← acElems
  let e' ← acElems
  let e ← acSlice e 0 (e'.len - 1)
  acSetElems e
  .ret t

/-- `TryPop`, `/repo/stack.go:45-53`. -/
def acStkTryPop [GoZero T] : Steps (VS T) (T × Bool) := do
  let e ← acElems
  if e.len = 0 then .ret (GoZero.zero, false)
  else do
    let t ← acStkTake
    .ret (t, true)

/-- `Pop`, `/repo/stack.go:58-62`. -/
def acStkPop : Steps (VS T) T := acStkTake

/-- `Top`, `/repo/stack.go:67-69`: the stack is copied for the call. -/
def acStkTop : Steps (VS T) T := do
  let e ← acElems
  acElem e (e.len - 1)

end Stl4go
