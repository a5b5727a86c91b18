import Verif.Model.Callback
/-!
# Specification vocabulary for callbacks that are Go code

`callsUntil stop cb xs t` calls `cb` with the elements of `xs` in order, starting in its state `t`, and gives the answers. It goes on
until an answer satisfies `stop`, a call panics or does not return, or the list ends. It knows nothing of slices.
-/
namespace Stl4go
variable {T σ α β ρ : Type}

/-- How a sequence of calls ends, and the state of the callback then. -/
inductive CallEnd (σ : Type) where
  | done (t : σ)
  | panicked (t : σ)
  | hung
deriving DecidableEq, Repr

/-- The answers of the calls that returned, and how the sequence ends. -/
def callsUntil (stop : α → Bool) (cb : T → GoM σ α) : List T → σ → List α × CallEnd σ
  | [], t => ([], .done t)
  | x :: xs, t =>
    match cb x t with
    | .panic t' => ([], .panicked t')
    | .diverge => ([], .hung)
    | .ok a t' =>
      if stop a then ([a], .done t')
      else (a :: (callsUntil stop cb xs t').1, (callsUntil stop cb xs t').2)

/-- All elements are passed, whatever the answers. -/
abbrev callsAll (cb : T → GoM σ α) (xs : List T) (t : σ) : List α × CallEnd σ := callsUntil (fun _ => false) cb xs t

/-- A function that returns `a` if the calls came to an end, panics if one panicked and hangs if one hung; `m` is the memory then. -/
def CallEnd.outcome (e : CallEnd σ) (m : Mem T) (a : β) : Res (CS T σ) β :=
  match e with
  | .done t => .ok a ⟨m, t⟩
  | .panicked t => .panic ⟨m, t⟩
  | .hung => .diverge

/-- A callback that has a state of its own and does not touch the elements. -/
def ownState (x : GoM ρ α) : GoM (CS T ρ) α := fun s =>
  match x s.st with
  | .ok a t => .ok a { s with st := t }
  | .panic t => .panic { s with st := t }
  | .diverge => .diverge

/-- The elements for which the answer was `false`. -/
def keptBy : List T → List Bool → List T
  | x :: xs, b :: bs => if b then keptBy xs bs else x :: keptBy xs bs
  | _, _ => []

end Stl4go
