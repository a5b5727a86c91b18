import Verif.Spec.SkipList
import Verif.Spec.Nan
import Verif.Spec.PriorityQueue
/-!
# Elements that compare like others

`f` gives every element another name. The elements of `T` are compared by comparing their names.
-/
namespace Stl4go
variable {T U V : Type}

/-- Operators that compare names. -/
@[instance_reducible] def GoOrd.pull (ord : GoOrd U) (f : T → U) : GoOrd T := { eq := fun a b => ord.eq (f a) (f b), lt := fun a b => ord.lt (f a) (f b) }

/-- Keys are compared by their names. -/
def SLImpl.pull (f : T → U) : SLImpl U → SLImpl T
  | .ordered ord => .ordered (ord.pull f)
  | .func keyCmp => .func (fun a b => keyCmp (f a) (f b))

/-- A node with the name of its key. -/
def SLNode.rekey (f : T → U) (n : SLNode T V) : SLNode U V := { key := f n.key, value := n.value, next := n.next }

/-- A skip list with the names of its keys. -/
def SL.rekey (f : T → U) (sl : SL T V) : SL U V :=
  { level := sl.level, len := sl.len, headNext := sl.headNext, prevsCache := sl.prevsCache, nodes := sl.nodes.map (SLNode.rekey f) }

/-- The same operation on names. -/
def SMOp.rekey (f : T → U) : SMOp T V → SMOp U V
  | .insert k v => .insert (f k) v
  | .remove k => .remove (f k)
  | .clear => .clear
  | .update k v => .update (f k) v
  | .find k => .find (f k)
  | .has k => .has (f k)
  | .len => .len
  | .isEmpty => .isEmpty
  | .iterate => .iterate
  | .lowerBound k => .lowerBound (f k)
  | .upperBound k => .upperBound (f k)

/-- The same observation with names. -/
def SMObs.rekey (f : T → U) : SMObs T V → SMObs U V
  | .unit => .unit
  | .val v => .val v
  | .flag b => .flag b
  | .num n => .num n
  | .entries l => .entries (l.map (fun e => (f e.1, e.2)))
  | .panicked => .panicked
  | .hung => .hung

/-- The same operation of a queue on names, and the same observation. -/
def PQOp.map (f : T → U) : PQOp T → PQOp U
  | .push v => .push (f v)
  | .pop => .pop
  | .top => .top
  | .clear => .clear
  | .len => .len
  | .isEmpty => .isEmpty

def PQObs.map (f : T → U) : PQObs T → PQObs U
  | .unit => .unit
  | .val v => .val (f v)
  | .num n => .num n
  | .flag b => .flag b
  | .panicked => .panicked
  | .hung => .hung

/-! ## An order on some of the values -/

/-- `less` is a strict weak order on the values with property `P`. Nothing is said about the others. -/
structure StrictWeakOn (P : T → Prop) (less : T → T → Bool) : Prop where
  irrefl : ∀ a, P a → less a a = false
  trans : ∀ a b c, P a → P b → P c → less a b = true → less b c = true → less a c = true
  incomp : ∀ a b c, P a → P b → P c → less a b = false → less b a = false → less b c = false → less c b = false → less a c = false

/-- The keys with property `P` are ordered, and `==` or 0 means that neither is smaller. -/
def SLImpl.LawfulOn (P : T → Prop) : SLImpl T → Prop
  | .ordered ord => StrictWeakOn P ord.lt ∧ ∀ a b, P a → P b → (ord.eq a b = true ↔ ord.lt a b = false ∧ ord.lt b a = false)
  | .func keyCmp => StrictWeakOn P (fun a b => decide (keyCmp a b < 0)) ∧ ∀ a b, P a → P b → (keyCmp a b = 0 ↔ 0 ≤ keyCmp a b ∧ 0 ≤ keyCmp b a)

/-- The keys that an operation is called with have property `P`. -/
def SMOp.KeysIn (P : T → Prop) : SMOp T V → Prop
  | .insert k _ | .update k _ | .remove k | .find k | .has k | .lowerBound k | .upperBound k => P k
  | _ => True

end Stl4go
