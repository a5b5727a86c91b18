import Verif.Spec.Heap
import Verif.Spec.Nan
/-! # Elements that compare with nothing, in heaps -/
namespace Stl4go
variable {T : Type}

/-- Neither less nor greater than anything: a NaN. -/
def Inert (less : T → T → Bool) (z : T) : Prop := ∀ x, less x z = false ∧ less z x = false

/-- Same length, and every inert element is where it was. -/
def InertStay (less : T → T → Bool) (h h' : List T) : Prop :=
  h'.length = h.length ∧ ∀ k (hk : k < h.length) (hk' : k < h'.length), Inert less h[k] ∨ Inert less h'[k] → h'[k] = h[k]

/-- A strict order in which everything that compares with something at all is comparable enough: what remains of a strict weak order if there
are inert elements. -/
structure HalfWeak (less : T → T → Bool) : Prop where
  asymm : ∀ a b, less a b = true → less b a = false
  between : ∀ a b c, less a c = true → (∃ x, less x b = true ∨ less b x = true) → less a b = true ∨ less b c = true

/-- All positions on the way from the root to `i`, except `i` itself, hold elements that satisfy `P`. -/
inductive ClearTo (P : T → Prop) (h : List T) : Nat → Prop
  | root : ClearTo P h 0
  | step (i : Nat) (hi : (i - 1) / 2 < h.length) (h0 : 0 < i) : ClearTo P h ((i - 1) / 2) → P (h[(i - 1) / 2]) → ClearTo P h i

end Stl4go
