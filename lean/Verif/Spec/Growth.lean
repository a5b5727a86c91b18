import Verif.Spec.HeapMem
import Verif.Spec.Stack
/-!
# What growing containers cost

`Mem.top` is the number of cells allocated so far, so its growth during a history is the memory allocated, which bounds the number of
elements copied to new arrays.
-/
namespace Stl4go
variable {T τ : Type}

/-- The runtime grows a full array by a quarter at least, as Go's `append` does. -/
def Geometric (grow : Nat → Nat → Nat) : Prop := ∀ c n, c < n → 5 * c ≤ 4 * max n (grow c n)

/-- The growth policy never asks for more than twice what is needed, up to a constant for rounding. -/
def Modest (grow : Nat → Nat → Nat) (k : Nat) : Prop := ∀ c n, c < n → grow c n ≤ 2 * n + k

/-- The loop of the runtime for large arrays. -/
def goGrowLoop : (fuel c n : Nat) → Nat
  | 0, c, _ => c
  | f + 1, c, n => if n ≤ c then c else goGrowLoop f (c + (c + 768) / 4) n

/-- The capacity Go 1.18 and later choose, before it is rounded up to a size the allocator has: twice the old one for small arrays, then a quarter more and
a constant, and never less than needed. -/
def goGrow (c n : Nat) : Nat := if 2 * c < n then n else if c < 256 then 2 * c else goGrowLoop n c n

/-- A history on one vector. -/
def Vec.execAll [GoZero T] (grow : Nat → Nat → Nat) : VS T → List (VOp T) → VS T
  | s, [] => s
  | s, op :: ops => Vec.execAll grow (Vec.exec grow s op).2 ops

/-- A history on one stack. -/
def Stk.execAll [GoZero T] (grow : Nat → Nat → Nat) : VS T → List (KOp T) → VS T
  | s, [] => s
  | s, op :: ops => Stk.execAll grow (Stk.exec grow s op).2 ops

/-- The operation keeps the vector, and does not ask for an array of a given size. -/
def VOp.plain : VOp T → Bool
  | .make | .makeCap _ | .of _ | .reserve _ | .shrink | .insert _ _ => false
  | _ => true

/-- The operation keeps the stack. -/
def KOp.plain : KOp T → Bool
  | .new | .newCap _ => false
  | _ => true

/-- Number of values in the slice that a call makes for its arguments. -/
def VOp.args : VOp T → Nat
  | .append xs | .insert _ xs => xs.length
  | _ => 0

/-- Number of values added. -/
def VOp.adds : VOp T → Nat
  | .pushBack _ => 1
  | .append xs | .insert _ xs => xs.length
  | _ => 0

/-- Number of values added. -/
def KOp.adds : KOp T → Nat
  | .push _ => 1
  | _ => 0

/-- Number of values added. -/
def PQOp.adds : PQOp T → Nat
  | .push _ => 1
  | _ => 0

end Stl4go
