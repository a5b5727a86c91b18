/-!
# Foundations of the model: outcomes, panics, Go's ordered types

Nothing here models a particular function of `/repo`; it fixes how Go's control flow (return, panic, endless loop)
and Go's comparison operators are represented.
-/
namespace Stl4go

/-- Outcome of a Go call whose state at a panic is not observable.
`diverge` is reported when a loop exhausts its fuel; the theorems prove it never happens (or, for C60, that it does). -/
inductive Outcome (α : Type) where
  | ret (a : α)
  | panic
  | diverge
deriving DecidableEq, Repr

namespace Outcome
/-- Sequencing: a panic or an endless loop in the first statement is the outcome of the whole. -/
def bind {α β : Type} (x : Outcome α) (f : α → Outcome β) : Outcome β :=
  match x with
  | ret a => f a
  | panic => panic
  | diverge => diverge

instance : Monad Outcome where
  pure := ret
  bind := Outcome.bind

@[simp] theorem ret_bind {α β : Type} (a : α) (f : α → Outcome β) : (ret a >>= f) = f a := rfl
@[simp] theorem panic_bind {α β : Type} (f : α → Outcome β) : ((panic : Outcome α) >>= f) = panic := rfl
@[simp] theorem diverge_bind {α β : Type} (f : α → Outcome β) : ((diverge : Outcome α) >>= f) = diverge := rfl
@[simp] theorem pure_eq {α : Type} (a : α) : (pure a : Outcome α) = ret a := rfl

instance : LawfulMonad Outcome := LawfulMonad.mk'
  (id_map := fun x => by cases x <;> rfl)
  (pure_bind := fun _ _ => rfl)
  (bind_assoc := fun x _ _ => by cases x <;> rfl)
end Outcome

/-- Outcome of a Go call together with the state it leaves, also when it panics (a caller may `recover`). -/
inductive Res (σ α : Type) where
  | ok (a : α) (s : σ)
  | panic (s : σ)
  | diverge
deriving DecidableEq, Repr

/-- A Go statement that reads and writes a state `σ` (memory, node heap, ...). -/
def GoM (σ α : Type) := σ → Res σ α

namespace GoM
variable {σ α β : Type}
protected def pure (a : α) : GoM σ α := fun s => .ok a s
protected def bind (x : GoM σ α) (f : α → GoM σ β) : GoM σ β := fun s =>
  match x s with
  | .ok a s' => f a s'
  | .panic s' => .panic s'
  | .diverge => .diverge
instance : Monad (GoM σ) where
  pure := GoM.pure
  bind := GoM.bind
/-- A Go `panic`: the state stays as it is at that moment. -/
def panic : GoM σ α := fun s => .panic s
/-- Fuel exhausted. -/
def diverge : GoM σ α := fun _ => .diverge
/-- Read the whole state. -/
def get : GoM σ σ := fun s => .ok s s
/-- Update the whole state. -/
def modify (f : σ → σ) : GoM σ Unit := fun s => .ok () (f s)

theorem bind_def (x : GoM σ α) (f : α → GoM σ β) (s : σ) :
    (x >>= f) s = match x s with
      | .ok a s' => f a s'
      | .panic s' => .panic s'
      | .diverge => .diverge := rfl
@[simp] theorem pure_apply (a : α) (s : σ) : (pure a : GoM σ α) s = .ok a s := rfl
@[simp] theorem panic_apply (s : σ) : (panic : GoM σ α) s = .panic s := rfl
@[simp] theorem diverge_apply (s : σ) : (diverge : GoM σ α) s = .diverge := rfl
@[simp] theorem get_apply (s : σ) : (get : GoM σ σ) s = .ok s s := rfl
@[simp] theorem modify_apply (f : σ → σ) (s : σ) : (modify f : GoM σ Unit) s = .ok () (f s) := rfl
theorem bind_ok {x : GoM σ α} {f : α → GoM σ β} {s s' : σ} {a : α} (h : x s = .ok a s') :
    (x >>= f) s = f a s' := by rw [bind_def, h]
theorem bind_panic {x : GoM σ α} {f : α → GoM σ β} {s s' : σ} (h : x s = .panic s') :
    (x >>= f) s = .panic s' := by rw [bind_def, h]
end GoM

/-- Slice indexing `a[i]` on the visible elements of a slice; out of range panics. -/
def idx {T : Type} (a : List T) (i : Nat) : Outcome T :=
  match a[i]? with
  | some v => .ret v
  | none => .panic

/-- Slice element assignment `a[i] = v`; out of range panics. -/
def setIdx {T : Type} (a : List T) (i : Nat) (v : T) : Outcome (List T) :=
  if i < a.length then .ret (a.set i v) else .panic

@[simp] theorem idx_of_lt {T : Type} {a : List T} {i : Nat} (h : i < a.length) : idx a i = .ret a[i] := by
  simp [idx, h]
@[simp] theorem setIdx_of_lt {T : Type} {a : List T} {i : Nat} {v : T} (h : i < a.length) :
    setIdx a i v = .ret (a.set i v) := by
  simp [setIdx, h]

/-- Go's `==` on a type of the `comparable` constraint, with no laws assumed (NaN is not equal to itself).
Simplification: `==` on interface values holding incomparable dynamic types, which panics, is left to `Model/PanicEq.lean`. -/
class GoEq (T : Type) where
  eq : T → T → Bool

/-- `==` is an equivalence relation: every comparable type without NaN. (Not necessarily identity: -0 == +0.) -/
class LawfulGoEq (T : Type) [GoEq T] : Prop where
  refl : ∀ a : T, GoEq.eq a a = true
  symm : ∀ a b : T, GoEq.eq a b = true → GoEq.eq b a = true
  trans : ∀ a b c : T, GoEq.eq a b = true → GoEq.eq b c = true → GoEq.eq a c = true

/-- Go's `<` and `==` on a type of the `Ordered` constraint (`/repo/types.go:31-37`), with no laws assumed.
`a > b` is `lt b a`; `a >= b` is `lt b a || eq a b`, which is also right for IEEE floats. -/
class GoOrd (T : Type) extends GoEq T where
  lt : T → T → Bool

/-- Go's `a >= b`. -/
def GoOrd.ge {T : Type} [GoOrd T] (a b : T) : Bool := GoOrd.lt b a || GoEq.eq a b

/-- `less` is a strict weak order: what the documentation of the `...Func` functions presupposes. -/
structure StrictWeak {T : Type} (less : T → T → Bool) : Prop where
  irrefl : ∀ a, less a a = false
  trans : ∀ a b c, less a b = true → less b c = true → less a c = true
  incomp : ∀ a b c, less a b = false → less b a = false → less b c = false → less c b = false →
    less a c = false

/-- The operators of the type are those of a totally (pre)ordered type: all integers, strings, floats without NaN. -/
class LawfulGoOrd (T : Type) [GoOrd T] : Prop where
  weak : StrictWeak (GoOrd.lt : T → T → Bool)
  eq_iff : ∀ a b : T, GoEq.eq a b = true ↔ (GoOrd.lt a b = false ∧ GoOrd.lt b a = false)

instance : GoOrd Int where
  lt a b := decide (a < b)
  eq a b := decide (a = b)

instance : GoOrd Nat where
  lt a b := decide (a < b)
  eq a b := decide (a = b)

instance : GoOrd String where
  lt a b := decide (a < b)
  eq a b := decide (a = b)

/-- A miniature of the IEEE floats: integers plus NaN. Every comparison with NaN is false, as in Go. -/
inductive NanInt where
  | nan
  | num (v : Int)
deriving DecidableEq, Repr

instance : GoOrd NanInt where
  lt
    | .num a, .num b => decide (a < b)
    | _, _ => false
  eq
    | .num a, .num b => decide (a = b)
    | _, _ => false

/-- The zero value of a Go type. -/
class GoZero (T : Type) where
  zero : T

instance : GoZero Int := ⟨0⟩
instance : GoZero Nat := ⟨0⟩
instance : GoZero String := ⟨""⟩
instance : GoZero Bool := ⟨false⟩
instance {T : Type} : GoZero (Option T) := ⟨none⟩

/-- Two's complement wrap-around of a mathematical integer into Go's 64-bit `int`. -/
def wrap64 (x : Int) : Int := (x + 2 ^ 63) % 2 ^ 64 - 2 ^ 63

end Stl4go
