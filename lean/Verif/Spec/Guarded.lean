import Verif.Model.Guarded
import Verif.Spec.Locked
import Verif.Spec.Goroutines
import Verif.Spec.Queue
import Verif.Spec.Stack
/-! # Operations behind a lock, and what a client sees of them -/
namespace Stl4go
variable {T σ α ω Op : Type}

/-- Operations one after another. -/
def runOps (step : σ → Op → ω × σ) : σ → List Op → List ω × σ
  | s, [] => ([], s)
  | s, op :: ops =>
    let r := step s op
    let rest := runOps step r.2 ops
    (r.1 :: rest.1, rest.2)

/-- A call that ends like this is seen as `r.1` and leaves `r.2`. -/
def Res.Shows (see : Outcome α → ω) (r : ω × σ) : Res σ α → Prop
  | .ok a s' => r = (see (.ret a), s')
  | .panic s' => r = (see .panic, s')
  | .diverge => r.1 = see .diverge

/-- The body of the call for `op`, run alone, does what `step` says, seen through `see`. It may be split into accesses in any way. -/
def Guards (see : Outcome α → ω) (step : σ → Op → ω × σ) (call : Op → LockedCall σ α) : Prop :=
  ∀ op s, ((call op).body.run s).Shows see (step s op)

/-- What goroutines that make the calls `call op` for the operations `ops i` have done after a schedule, if `order` lists the operations that are over, with their goroutines, in the order in which they released the lock:
the operations of each goroutine are in its own order, the outcomes are `obs`, and if no goroutine is writing the memory is `s'`. -/
def Ordered (see : Outcome α → ω) (call : Op → LockedCall σ α) (ops : Nat → List Op) (st : LockedState σ α) (order : List (Nat × Op)) (obs : List ω) (s' : σ) : Prop :=
  (∀ i, (order.filter (fun e => e.1 = i)).map (·.2) <+: ops i) ∧ st.log.map (fun e => (e.1, e.2.1)) = order.map (fun e => (e.1, call e.2)) ∧
  st.log.map (fun e => see e.2.2) = obs ∧ (st.writer = none → st.mem = s')

/-- A client sees the observation that a call returns, or its panic. -/
def DObs.ofOutcome : Outcome (DObs T) → DObs T
  | .ret a => a
  | .panic => .panicked
  | .diverge => .hung

/-- The accesses of an operation of a queue. -/
def QOp.body [GoZero T] : QOp T → Steps (DS T) (DObs T)
  | .new => do Steps.prim DQ.new; .ret .unit
  | .pushFront v => do acPushFront v; .ret .unit
  | .pushBack v => do acPushBack v; .ret .unit
  | .popFront => do let v ← acPopFront; .ret (.val v)
  | .popBack => do let v ← acPopBack; .ret (.val v)
  | .tryPopFront => do let r ← acTryPopFront; .ret (.try_ r.1 r.2)
  | .tryPopBack => do let r ← acTryPopBack; .ret (.try_ r.1 r.2)
  | .front => do let v ← acFront; .ret (.val v)
  | .back => do let v ← acBack; .ret (.val v)
  | .len => do let n ← acLength; .ret (.num n)
  | .isEmpty => do let b ← acIsEmpty; .ret (.flag b)
  | .clear => do acClear; .ret .unit

/-- The operations that only look: for these the client may take the lock for reading. -/
def QOp.looks : QOp T → Bool
  | .front | .back | .len | .isEmpty => true
  | _ => false

/-- A call between `Lock` and `Unlock`, or between `RLock` and `RUnlock`. -/
def QOp.locked [GoZero T] (op : QOp T) : LockedCall (DS T) (DObs T) := { write := !op.looks, body := op.body }

/-- The accesses of an operation of a stack. -/
def KOp.body [GoZero T] (grow : Nat → Nat → Nat) : KOp T → Steps (VS T) (DObs T)
  | .new => do Steps.prim Stk.new; .ret .unit
  | .newCap c => do acStkNewCap c; .ret .unit
  | .push x => do acStkPush grow x; .ret .unit
  | .pop => do let v ← acStkPop; .ret (.val v)
  | .tryPop => do let r ← acStkTryPop; .ret (.try_ r.1 r.2)
  | .top => do let v ← acStkTop; .ret (.val v)
  | .clear => do acStkClear; .ret .unit
  | .len => do let e ← acElems; .ret (.num e.len)
  | .isEmpty => do let e ← acElems; .ret (.flag (e.len == 0))

/-- The operations that only look. -/
def KOp.looks : KOp T → Bool
  | .top | .len | .isEmpty => true
  | _ => false

/-- A call between `Lock` and `Unlock`, or between `RLock` and `RUnlock`. -/
def KOp.locked [GoZero T] (grow : Nat → Nat → Nat) (op : KOp T) : LockedCall (VS T) (DObs T) := { write := !op.looks, body := op.body grow }

/-- A queue as a sequence. -/
def QOp.onList [GoZero T] (l : List T) (op : QOp T) : DObs T × List T := Deque.step l op.toDeque

end Stl4go
