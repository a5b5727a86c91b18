import Verif.Model.HeapMem
import Verif.Spec.Heap
import Verif.Spec.Order
import Verif.Spec.PriorityQueue
import Verif.Spec.Transform
import Verif.Spec.Vector
/-! # Specification of heaps and priority queues on memory -/
namespace Stl4go
variable {T τ : Type}

/-- Between `m` and `m'` the elements of `a` changed places at most, and no other cell changed. -/
def Rearranged (m m' : Mem T) (a : Sl) : Prop := OnlyIn m m' a ∧ (a.read m').Perm (a.read m)

/-- `v` was added to the heap slice `h`, which became `h'`: in the same array if that had room, else in a new one, the old one untouched. -/
structure Pushed (m : Mem T) (h : Sl) (v : T) (m' : Mem T) (h' : Sl) : Prop where
  wf : h'.WF m'
  read : (h'.read m').Perm (v :: h.read m)
  room : h.len < h.cap → h' = { h with len := h.len + 1 } ∧ OnlyIn m m' h'
  full : h.len = h.cap → m.top ≤ h'.off ∧ ∀ k, k < m.top → m'.cell k = m.cell k

/-- The comparison function panicked in some call, leaving the state `t`. -/
def PanicsWith (less : LessM T τ) (t : τ) : Prop := ∃ x y t0, less x y t0 = .panic t

/-- Some call of the comparison function does not return. -/
def Hangs (less : LessM T τ) : Prop := ∃ x y t0, less x y t0 = .diverge

/-- The comparison function may have effects on its own state, but always returns, and always the answer of `l`. -/
def Answers (less : LessM T τ) (l : T → T → Bool) : Prop := ∀ x y t, ∃ t', less x y t = .ok (l x y) t'

/-- A client that calls `PopHeapFunc` `n` times (`heap.go` in a loop). -/
def popTimes (less : LessM T τ) : Nat → GoM (HS T τ) (List T)
  | 0 => pure []
  | n + 1 => do
    let x ← popHeapFuncM less
    let xs ← popTimes less n
    return x :: xs

/-- A client that calls `Pop` of a `PriorityQueue` `n` times. -/
def PQM.popTimes (impl : PQImplM T τ) : Nat → GoM (HS T τ) (List T)
  | 0 => pure []
  | n + 1 => do
    let x ← PQM.pop impl
    let xs ← PQM.popTimes impl n
    return x :: xs

/-- What a client sees of a call. -/
def HS.observe {α : Type} (f : α → PQObs T) (x : GoM (HS T τ) α) (s : HS T τ) : PQObs T × HS T τ :=
  match x s with
  | .ok a s' => (f a, s')
  | .panic s' => (.panicked, s')
  | .diverge => (.hung, s)

/-- One client operation on a queue. -/
def PQM.exec [GoZero T] (grow : Nat → Nat → Nat) (impl : PQImplM T τ) (s : HS T τ) : PQOp T → PQObs T × HS T τ
  | .push v => HS.observe (fun _ => .unit) (PQM.push grow impl v) s
  | .pop => HS.observe .val (PQM.pop impl) s
  | .top => HS.observe .val PQM.top s
  | .clear => HS.observe (fun _ => .unit) PQM.clear s
  | .len => HS.observe .num PQM.len s
  | .isEmpty => HS.observe .flag PQM.isEmpty s

/-- A history on one queue. -/
def PQM.execAll [GoZero T] (grow : Nat → Nat → Nat) (impl : PQImplM T τ) : HS T τ → List (PQOp T) → List (PQObs T) × HS T τ
  | s, [] => ([], s)
  | s, op :: ops =>
    let r := PQM.exec grow impl s op
    let rest := PQM.execAll grow impl r.2 ops
    (r.1 :: rest.1, rest.2)

/-! ## Several queues -/

/-- Operations of a client that has several variables of type `*PriorityQueue`. -/
inductive PQWOp (T : Type) where
  | new                            -- `q = NewPriorityQueue()`
  | newFunc (less : T → T → Bool)  -- `q = NewPriorityQueueFunc(less)`
  | newOf (xs : List T)            -- `q = NewPriorityQueueOf(xs...)`
  | op (o : PQOp T)

/-- The variables, over one memory: the `heap` field and the `impl` field of each queue. -/
structure PQWorld (T : Type) where
  mem : Mem T
  vars : Nat → Sl
  impl : Nat → PQImplM T Unit

/-- Every variable points to a zero `PriorityQueue`. -/
def PQWorld.init (m : Mem T) : PQWorld T := { mem := m, vars := fun _ => Sl.empty, impl := fun _ => .nil }

/-- The `impl` field after an operation. -/
def PQWOp.implAfter [ord : GoOrd T] (impl : PQImplM T Unit) : PQWOp T → PQImplM T Unit
  | .new => .ordered ord
  | .newFunc less => .func (fun x y => pure (less x y))
  | .newOf _ => .ordered ord
  | .op _ => impl

/-- One client operation on one queue. -/
def PQWOp.exec [GoZero T] [GoOrd T] (grow : Nat → Nat → Nat) (impl : PQImplM T Unit) (s : HS T Unit) : PQWOp T → PQObs T × HS T Unit
  | .new => HS.observe (fun _ => .unit) PQM.new s
  | .newFunc _ => HS.observe (fun _ => .unit) PQM.new s
  | .newOf xs => HS.observe (fun _ => .unit) (PQM.newOf xs) s
  | .op o => PQM.exec grow impl s o

/-- A history on several queues. -/
def PQWorld.run [GoZero T] [GoOrd T] (grow : Nat → Nat → Nat) : PQWorld T → List (Nat × PQWOp T) → List (PQObs T) × PQWorld T
  | w, [] => ([], w)
  | w, (i, op) :: ops =>
    let r := op.exec grow (w.impl i) { mem := w.mem, st := (), heap := w.vars i }
    let rest := PQWorld.run grow { mem := r.2.mem, vars := fun j => if j = i then r.2.heap else w.vars j,
                                   impl := fun j => if j = i then op.implAfter (w.impl i) else w.impl j } ops
    (r.1 :: rest.1, rest.2)

/-- A queue as the client should see it: a zero `PriorityQueue`, or a multiset with the order it was made with. -/
inductive PQSpec (T : Type) where
  | zero
  | made (less : T → T → Bool) (m : List T)

/-- One operation. A zero `PriorityQueue` is empty; pushing to it panics. -/
inductive PQWStep [GoOrd T] : PQSpec T → PQWOp T → PQObs T → PQSpec T → Prop where
  | new (q) : PQWStep q .new .unit (.made GoOrd.lt [])
  | newFunc (q less) : PQWStep q (.newFunc less) .unit (.made less [])
  | newOf (q xs m) : m.Perm xs → PQWStep q (.newOf xs) .unit (.made GoOrd.lt m)
  | op (less m o ob m') : PQStep less m o ob m' → PQWStep (.made less m) (.op o) ob (.made less m')
  | zeroPush (v) : PQWStep .zero (.op (.push v)) .panicked .zero
  | zeroPop : PQWStep .zero (.op .pop) .panicked .zero
  | zeroTop : PQWStep .zero (.op .top) .panicked .zero
  | zeroClear : PQWStep .zero (.op .clear) .unit .zero
  | zeroLen : PQWStep .zero (.op .len) (.num 0) .zero
  | zeroIsEmpty : PQWStep .zero (.op .isEmpty) (.flag true) .zero

/-- A history on several queues: an operation on one does not concern the others. -/
inductive PQWRun [GoOrd T] : (Nat → PQSpec T) → List (Nat × PQWOp T) → List (PQObs T) → (Nat → PQSpec T) → Prop where
  | nil (s) : PQWRun s [] [] s
  | cons (s i op ob q ops obs s') : PQWStep (s i) op ob q → PQWRun (fun j => if j = i then q else s j) ops obs s' →
      PQWRun s ((i, op) :: ops) (ob :: obs) s'

/-- The elements of a queue. -/
def PQSpec.elems : PQSpec T → List T
  | .zero => []
  | .made _ m => m

/-- What the unused slots of the array hold, in order: the cells between the length and the capacity of the slice. -/
def Sl.unused (m : Mem T) (v : Sl) : List T := Sl.read m { off := v.off + v.len, len := v.cap - v.len, cap := v.cap - v.len }

/-- What an operation does to the unused slots `e` of a queue with the elements `q`, stored in that order: `Pop` puts the popped element in front,
`Push` takes the first one, or if there is none moves to a new array whose other slots are zero, `Clear` leaves all elements in front. -/
def PQWOp.leaves [GoZero T] (grow : Nat → Nat → Nat) (q : PQSpec T) (e : List T) : PQWOp T → PQObs T → List T
  | .new, _ => []
  | .newFunc _, _ => []
  | .newOf _, _ => []
  | .op (.push _), .unit => if e = [] then List.replicate (grow q.elems.length (q.elems.length + 1) - (q.elems.length + 1)) GoZero.zero else e.tail
  | .op .pop, .val r => r :: e
  | .op .clear, _ => q.elems ++ e
  | .op _, _ => e

/-- A history on several queues, with the unused slots of each. -/
inductive PQArrRun [GoZero T] [GoOrd T] (grow : Nat → Nat → Nat) : (Nat → PQSpec T) → (Nat → List T) → List (Nat × PQWOp T) → List (PQObs T) →
    (Nat → PQSpec T) → (Nat → List T) → Prop where
  | nil (s e) : PQArrRun grow s e [] [] s e
  | cons (s e i op ob q ops obs s' e') : PQWStep (s i) op ob q →
      PQArrRun grow (fun j => if j = i then q else s j) (fun j => if j = i then op.leaves grow (s i) (e i) ob else e j) ops obs s' e' →
      PQArrRun grow s e ((i, op) :: ops) (ob :: obs) s' e'

/-- The values a history puts into queues. -/
def PQWOp.given : List (Nat × PQWOp T) → List T
  | [] => []
  | (_, .newOf xs) :: h => xs ++ PQWOp.given h
  | (_, .op (.push x)) :: h => x :: PQWOp.given h
  | _ :: h => PQWOp.given h

/-- The orders a history gives to `NewPriorityQueueFunc` are strict weak orders. -/
def PQWOp.Orders (h : List (Nat × PQWOp T)) : Prop := ∀ i less, (i, PQWOp.newFunc less) ∈ h → StrictWeak less

end Stl4go
