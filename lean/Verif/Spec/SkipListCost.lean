import Verif.Spec.SkipListM
/-!
# Random words

The operations are fixed in advance; operation number `i` finds the word `ws i` when it asks the random number generator, if it does.
-/
namespace Stl4go
variable {K V : Type}

/-- The operations together with one 64-bit random word for each of them. -/
def drawing (ops : List (SMOp K V)) (ws : Fin ops.length → Fin (2 ^ 64)) : List (Nat × SMOp K V) :=
  List.ofFn fun i => ((ws i : Nat), ops[i])

end Stl4go
