import Verif.Spec.Deque
import Verif.Spec.SList
import Verif.Spec.Queue
import Verif.Spec.Stack
import Verif.Spec.Vector
import Verif.Spec.BuiltinSet
import Verif.Spec.SortedSet
/-!
# One use, several containers

The operations of a stack, a queue and a set as a client means them, and the methods that do them.
-/
namespace Stl4go
variable {T K : Type}

/-- What a client does with a stack. -/
inductive UseStack (T : Type) where
  | new
  | push (x : T)
  | pop
  | tryPop
  | top
  | clear
  | len
  | isEmpty

/-- With a `Stack`. -/
def UseStack.stack : UseStack T → KOp T
  | .new => .new
  | .push x => .push x
  | .pop => .pop
  | .tryPop => .tryPop
  | .top => .top
  | .clear => .clear
  | .len => .len
  | .isEmpty => .isEmpty

/-- With a `Vector`, at its end. -/
def UseStack.vector : UseStack T → VOp T
  | .new => .make
  | .push x => .pushBack x
  | .pop => .popBack
  | .tryPop => .tryPopBack
  | .top => .back
  | .clear => .clear
  | .len => .len
  | .isEmpty => .isEmpty

/-- With a `DListQueue`, at its end. -/
def UseStack.queueBack : UseStack T → QOp T
  | .new => .new
  | .push x => .pushBack x
  | .pop => .popBack
  | .tryPop => .tryPopBack
  | .top => .back
  | .clear => .clear
  | .len => .len
  | .isEmpty => .isEmpty

/-- With a `DListQueue`, at its front. -/
def UseStack.queueFront : UseStack T → QOp T
  | .new => .new
  | .push x => .pushFront x
  | .pop => .popFront
  | .tryPop => .tryPopFront
  | .top => .front
  | .clear => .clear
  | .len => .len
  | .isEmpty => .isEmpty

/-- With a `DList`, at its end or its front. -/
def UseStack.dlistBack (o : UseStack T) : DOp T := o.queueBack.toDeque
def UseStack.dlistFront (o : UseStack T) : DOp T := o.queueFront.toDeque

/-- With an `SList`, at its front; there is no `TryPop`. -/
def UseStack.slist : UseStack T → Option (LOp T)
  | .new => some (.make [])
  | .push x => some (.pushFront x)
  | .pop => some .popFront
  | .tryPop => none
  | .top => some .front
  | .clear => some .clear
  | .len => some .len
  | .isEmpty => some .isEmpty

/-- What a client does with a queue. -/
inductive UseQueue (T : Type) where
  | new
  | push (x : T)
  | pop
  | tryPop
  | first
  | last
  | clear
  | len
  | isEmpty

/-- With a `DListQueue`, from the end to the front. -/
def UseQueue.queue : UseQueue T → QOp T
  | .new => .new
  | .push x => .pushBack x
  | .pop => .popFront
  | .tryPop => .tryPopFront
  | .first => .front
  | .last => .back
  | .clear => .clear
  | .len => .len
  | .isEmpty => .isEmpty

/-- With a `DListQueue`, from the front to the end. -/
def UseQueue.reversed : UseQueue T → QOp T
  | .new => .new
  | .push x => .pushFront x
  | .pop => .popBack
  | .tryPop => .tryPopBack
  | .first => .back
  | .last => .front
  | .clear => .clear
  | .len => .len
  | .isEmpty => .isEmpty

/-- With a `DList`, both ways. -/
def UseQueue.dlist (o : UseQueue T) : DOp T := o.queue.toDeque
def UseQueue.dlistReversed (o : UseQueue T) : DOp T := o.reversed.toDeque

/-- With an `SList`; there is no `TryPop`. -/
def UseQueue.slist : UseQueue T → Option (LOp T)
  | .new => some (.make [])
  | .push x => some (.pushBack x)
  | .pop => some .popFront
  | .tryPop => none
  | .first => some .front
  | .last => some .back
  | .clear => some .clear
  | .len => some .len
  | .isEmpty => some .isEmpty

/-- What a client does with a set; the numbers are for the generator of the skip list. -/
inductive UseSet (K : Type) where
  | insert (rnd : Nat) (k : K)
  | insertN (ks : List (Nat × K))
  | remove (k : K)
  | removeN (ks : List K)
  | has (k : K)
  | keys
  | clear
  | len
  | isEmpty

/-- With a `SkipListSet`. -/
def UseSet.sorted : UseSet K → SSOp K
  | .insert rnd k => .insert rnd k
  | .insertN ks => .insertN ks
  | .remove k => .remove k
  | .removeN ks => .removeN ks
  | .has k => .has k
  | .keys => .keys
  | .clear => .clear
  | .len => .len
  | .isEmpty => .isEmpty

/-- With the `BuiltinSet` number `r`. -/
def UseSet.builtin (r : Nat) : UseSet K → BOp K
  | .insert _ k => .insert (some r) k
  | .insertN ks => .insertN (some r) (ks.map (·.2))
  | .remove k => .remove (some r) k
  | .removeN ks => .removeN (some r) ks
  | .has k => .has (some r) k
  | .keys => .keys (some r)
  | .clear => .clear (some r)
  | .len => .len (some r)
  | .isEmpty => .isEmpty (some r)

/-- The same results. Keys: as many, and each is equal to one on the other side. -/
def SameObs [GoEq K] : SSObs K → BObs K → Prop
  | .unit, .unit => True
  | .flag b, .flag b' => b = b'
  | .num n, .num n' => n = n'
  | .list l, .keys l' => l.length = l'.length ∧ ∀ k, l.any (fun x => GoEq.eq k x) = l'.any (fun x => GoEq.eq k x)
  | _, _ => False

/-- The same results one after the other. -/
def SameRun [GoEq K] : List (SSObs K) → List (BObs K) → Prop
  | [], [] => True
  | a :: as, b :: bs => SameObs a b ∧ SameRun as bs
  | _, _ => False

end Stl4go
