import Verif.Model.Generate
import Verif.Spec.Transform
/-! # Specification of the numeric functions -/
namespace Stl4go
variable {T σ : Type}

/-- `z` is a value of the integer type `g`. -/
def GoInt.Holds (w : Nat) (g : GoInt) (z : Int) : Prop := g.min w ≤ z ∧ z ≤ g.max w

instance (w : Nat) (g : GoInt) (z : Int) : Decidable (g.Holds w z) := by unfold GoInt.Holds; infer_instance

/-- `r` is the value of type `g` that `z` is reduced to: it differs from `z` by a multiple of 2^bits. -/
def GoInt.Reduces (w : Nat) (g : GoInt) (z r : Int) : Prop := g.Holds w r ∧ ∃ n : Int, r = z + n * 2 ^ g.bits w

/-- The float that is the integer `n`. -/
def Flt.ofInt (n : Int) : Flt := .fin (n * Flt.one)

/-- `z` units is a finite float of type `g`: up to `prec` significant bits, and not finer or larger than the type allows. -/
def GoFloat.Rep (g : GoFloat) (z : Int) : Prop := z.natAbs < g.limit ∧ ∃ m e : Nat, z.natAbs = m * 2 ^ e ∧ m < 2 ^ g.prec ∧ g.sub ≤ e

/-- `r` is a float of type `g` and no other one is closer to `num / den` units. -/
def GoFloat.Nearest (g : GoFloat) (num den r : Int) : Prop :=
  g.Rep r ∧ ∀ x, g.Rep x → (r * den - num).natAbs ≤ (x * den - num).natAbs

/-- 2^prec as a float, in units: the largest number up to which all integers are floats of type `g`. -/
def GoFloat.wall (g : GoFloat) : Int := 2 ^ g.prec * Flt.one

/-- When counting up by one from the float of `z` units reaches `last`: up to the wall; from the even integers that are not multiples of
4 between the wall and twice the wall (either sign) one step further; from the one next to the negative wall also up to the wall. -/
def CountEnds (g : GoFloat) (z : Int) (last : Flt) : Prop :=
  (-g.wall ≤ z ∧ z ≤ g.wall ∧ Flt.lt (.fin g.wall) last = false) ∨
  (g.wall < z.natAbs ∧ (z.natAbs : Int) < 2 * g.wall ∧ ¬ 4 * (Flt.one : Int) ∣ z ∧ Flt.lt (.fin (z + 2 * Flt.one)) last = false) ∨
  (z = -(g.wall + 2 * Flt.one) ∧ Flt.lt (.fin g.wall) last = false)

/-- `first, first+1, ...`: `n` numbers. -/
def upFrom (first : Int) (n : Nat) : List Int := (List.range n).map (fun (k : Nat) => first + k)

/-- The results of `n` calls of a generator with state `t`, and the state after them. -/
def draws (gen : σ → σ × T) : σ → Nat → σ × List T
  | t, 0 => (t, [])
  | t, n + 1 => ((draws gen (gen t).1 n).1, (gen t).2 :: (draws gen (gen t).1 n).2)

end Stl4go
