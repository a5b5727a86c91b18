import Verif.Model.SkipListCallback
import Verif.Spec.SortedSet
/-!
# Model of iterators and callbacks of `/repo/skiplist_set.go` that change the set

The client holds any number of iterators of one set. The callback of `ForEach` and `ForEachIf` is a program that may call any method of the
set, use the iterators, panic, or never return. The set's `ForEach` is the loop of the map's `ForEach` (`/repo/skiplist.go:173-177`).
-/
namespace Stl4go
variable {K α σ : Type}

/-- A call by client code. -/
inductive SetOp (K : Type) where
  | set (op : SSOp K)                    -- a method of the set
  | lowerBound (c : Nat) (k : K)         -- `c = s.LowerBound(k)`
  | upperBound (c : Nat) (k : K)         -- `c = s.UpperBound(k)`
  | findRange (c : Nat) (a b : K)        -- `c = s.FindRange(a, b)`
  | isNotEnd (c : Nat)                   -- `c.IsNotEnd()`
  | value (c : Nat)                      -- `c.Value()`
  | next (c : Nat)                       -- `c.MoveToNext()`

/-- What the client observes. -/
inductive SetObs (K : Type) where
  | of (o : SSObs K)
  | key (k : K)
  | panicked
  | hung
deriving DecidableEq

/-- What a call shows (`/repo/skiplist_set.go:26-124`): its result, or that it panicked or hung; then nothing else has changed. -/
def SCWorld.kseen (w : SCWorld K Unit) (r : Outcome α) (f : α → SetObs K × SCWorld K Unit) : SetObs K × SCWorld K Unit :=
  match r with
  | .ret a => f a
  | .panic => (.panicked, w)
  | .diverge => (.hung, w)

/-- One call, `/repo/skiplist_set.go:26-124`. The world of C120 with a set in place of the map; the pointers are not used. -/
def SCWorld.kstep (impl : SLImpl K) (w : SCWorld K Unit) : SetOp K → SetObs K × SCWorld K Unit
  | .set op => w.kseen (SLSet.exec impl w.sl op) (fun r => (.of r.2, { w with sl := r.1 }))
  | .lowerBound c k => w.kseen (SLSet.lowerBoundIter impl w.sl k) (fun it => (.of .unit, w.put c it))
  | .upperBound c k => w.kseen (SLSet.upperBoundIter impl w.sl k) (fun it => (.of .unit, w.put c it))
  | .findRange c a b => w.kseen (SLSet.findRange impl w.sl a b) (fun it => (.of .unit, w.put c it))
  | .isNotEnd c => (.of (.flag (w.curs c).setIsNotEnd), w)
  | .value c => w.kseen ((w.curs c).setValue w.sl) (fun k => (.key k, w))
  | .next c => w.kseen ((w.curs c).setMoveToNext w.sl) (fun it => (.of .unit, w.put c it))

/-- A history of calls, `/repo/skiplist_set.go:26-124`. -/
def SCWorld.krun (impl : SLImpl K) : SCWorld K Unit → List (SetOp K) → List (SetObs K) × SCWorld K Unit
  | w, [] => ([], w)
  | w, op :: ops => ((w.kstep impl op).1 :: ((w.kstep impl op).2.krun impl ops).1, ((w.kstep impl op).2.krun impl ops).2)

/-- Client code that is passed as `f` (`/repo/skiplist_set.go:83,88`). -/
inductive SetProg (K α : Type) where
  | ret (a : α)
  | panic
  | hang
  | call (op : SetOp K) (k : SetObs K → SetProg K α)

/-- Run client code in the callback (`/repo/skiplist_set.go:84,89`): a panic of a method ends the callback. -/
def SetProg.exec (impl : SLImpl K) : SetProg K α → GoM (SCWorld K Unit) α
  | .ret a => pure a
  | .panic => GoM.panic
  | .hang => GoM.diverge
  | .call op k => fun w =>
    match (w.kstep impl op).1 with
    | .panicked => .panic (w.kstep impl op).2
    | .hung => .diverge
    | o => (k o).exec impl (w.kstep impl op).2

/-- Loop of the map's `ForEach` (`/repo/skiplist.go:174-176`) with the closure of `/repo/skiplist_set.go:84`. -/
def SLSet.forEachLoopC (impl : SLImpl K) (cb : σ → K → SetProg K σ) : (fuel : Nat) → Option Nat → σ → GoM (SCWorld K Unit) σ
  | 0, _, _ => GoM.diverge
  | _ + 1, none, t => pure t
  | fuel + 1, some e, t => do
    let n ← SCWorld.read (fun sl => sl.deref e)
    let t ← (cb t n.key).exec impl
    let e ← SCWorld.read (fun sl => sl.nextAt (.node e) 0)
    SLSet.forEachLoopC impl cb fuel e t

/-- `ForEach`, `/repo/skiplist_set.go:83-85`, over `/repo/skiplist.go:173-177`. -/
def SLSet.forEachC (impl : SLImpl K) (fuel : Nat) (cb : σ → K → SetProg K σ) (t : σ) : GoM (SCWorld K Unit) σ := do
  let e ← SCWorld.read (fun sl => sl.nextAt .head 0)
  SLSet.forEachLoopC impl cb fuel e t

/-- Loop of the map's `ForEachIf` (`/repo/skiplist.go:188-192`) with the closure of `/repo/skiplist_set.go:89`. -/
def SLSet.forEachIfLoopC (impl : SLImpl K) (cb : σ → K → SetProg K (σ × Bool)) : (fuel : Nat) → Option Nat → σ → GoM (SCWorld K Unit) σ
  | 0, _, _ => GoM.diverge
  | _ + 1, none, t => pure t
  | fuel + 1, some e, t => do
    let n ← SCWorld.read (fun sl => sl.deref e)
    let r ← (cb t n.key).exec impl
    if r.2 = false then pure r.1
    else do
      let e ← SCWorld.read (fun sl => sl.nextAt (.node e) 0)
      SLSet.forEachIfLoopC impl cb fuel e r.1

/-- `ForEachIf`, `/repo/skiplist_set.go:88-90`, over `/repo/skiplist.go:187-193`. -/
def SLSet.forEachIfC (impl : SLImpl K) (fuel : Nat) (cb : σ → K → SetProg K (σ × Bool)) (t : σ) : GoM (SCWorld K Unit) σ := do
  let e ← SCWorld.read (fun sl => sl.nextAt .head 0)
  SLSet.forEachIfLoopC impl cb fuel e t

end Stl4go
