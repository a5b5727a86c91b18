import Verif.Model.Basic
/-!
# Specification: calls that only look

Nothing here mentions a function of the library.
-/
namespace Stl4go
variable {σ α β : Type}

/-- Whatever state `x` starts in, sound or not, the part `obs` of the state is afterwards what it was: also if `x` panics. -/
def OnlyLooks (obs : σ → β) (x : GoM σ α) : Prop := ∀ s, match x s with
  | .ok _ s' => obs s' = obs s
  | .panic s' => obs s' = obs s
  | .diverge => True

/-- How a call ends for the goroutine that makes it. -/
def answerOf : Res σ α → Outcome α
  | .ok a _ => .ret a
  | .panic _ => .panic
  | .diverge => .diverge

/-- The state after a call; a goroutine that never comes back does not stop the others. -/
def stateOf (s : σ) : Res σ α → σ
  | .ok _ s' => s'
  | .panic s' => s'
  | .diverge => s

/-- Calls of several goroutines in the order in which they happen to take place: which goroutine, and what it calls. -/
def serve : List (Nat × GoM σ α) → σ → List (Nat × Outcome α) × σ
  | [], s => ([], s)
  | c :: cs, s => ((c.1, answerOf (c.2 s)) :: (serve cs (stateOf s (c.2 s))).1, (serve cs (stateOf s (c.2 s))).2)

/-- What belongs to goroutine `g`. -/
def ofGoroutine (g : Nat) (l : List (Nat × α)) : List α := (l.filter (fun c => c.1 == g)).map (·.2)

end Stl4go
