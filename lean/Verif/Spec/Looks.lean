import Verif.Model.Looks
/-! # What a call looks at -/
namespace Stl4go
variable {T S α : Type}

/-- The outcome together with the record it leaves. -/
def Outcome.leaving {σ : Type} (s : σ) : Outcome α → Res σ α
  | .ret a => .ok a s
  | .panic => .panic s
  | .diverge => .diverge

/-- `x` has the outcome `o` and looks at exactly `t`, in this order, on the way. -/
def Looks (x : GoM (List (Look T)) α) (o : Outcome α) (t : List (Look T)) : Prop := ∀ s, x s = o.leaving (s ++ t)

/-- `k` is the number of elements of `l` that come before or are the first one with `p`; all of them if there is none. -/
def Until (p : S → Bool) (l : List S) (k : Nat) : Prop :=
  k ≤ l.length ∧ (∀ i v, i + 1 < k → l[i]? = some v → p v = false) ∧ (k < l.length → ∃ v, 0 < k ∧ l[k - 1]? = some v ∧ p v = true)

/-- What is looked at for the first `k` elements of `l`, if it is `e i v` for element `v` at index `i`. -/
def visit (e : Nat → S → List (Look T)) (l : List S) (k : Nat) : List (Look T) := ((l.take k).zipIdx).flatMap fun v => e v.2 v.1

/-- Each element with the one after it. -/
def neighbours (l : List S) : List (S × S) := l.zip l.tail

/-- What looks at an element. -/
def Look.isRead : Look T → Bool
  | .a _ => true
  | .b _ => true
  | _ => false

/-- One of the two is smaller. -/
def apart [GoOrd T] (v : T × T) : Bool := GoOrd.lt v.1 v.2 || GoOrd.lt v.2 v.1

/-- What `Compare` looks at for two elements. -/
def comparing [GoOrd T] (i : Nat) (v : T × T) : List (Look T) := [.a i, .b i, .lt v.1 v.2] ++ if GoOrd.lt v.1 v.2 then [] else [.lt v.2 v.1]

/-- What a loop over all elements from `i` on may look at: one comparison for each, or `c`, and at most `2 * c` reads, of each element at least one. -/
structure Through (a : List T) (c i : Nat) (t : List (Look T)) : Prop where
  tests : (t.filter fun e => !e.isRead).length = c * (a.length - i)
  reads : (t.filter fun e => e.isRead).length ≤ 2 * c * (a.length - i)
  all : ∀ j, i ≤ j → j < a.length → Look.a j ∈ t

end Stl4go
