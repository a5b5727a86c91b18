import Verif.Model.Locked
/-! # Calls one after another, and calls that only look -/
namespace Stl4go
variable {σ α : Type}

/-- No access changes the memory. -/
def Steps.Reads : Steps σ α → Prop
  | .act next upd => (∀ s, upd s = s) ∧ ∀ s, (next s).Reads
  | _ => True

/-- The calls made one after another, each as a whole, take the memory from the first to the last state, with these outcomes. -/
inductive Serially : σ → List (LockedCall σ α × Outcome α) → σ → Prop where
  | nil (s : σ) : Serially s [] s
  | ret {s s' s'' : σ} {c : LockedCall σ α} {a : α} {l : List (LockedCall σ α × Outcome α)} (h : c.body.run s = .ok a s') (t : Serially s' l s'') : Serially s ((c, .ret a) :: l) s''
  | panic {s s' s'' : σ} {c : LockedCall σ α} {l : List (LockedCall σ α × Outcome α)} (h : c.body.run s = .panic s') (t : Serially s' l s'') : Serially s ((c, .panic) :: l) s''

/-- The calls that goroutine `i` has completed, in that order. -/
def LockedState.completed (st : LockedState σ α) (i : Nat) : List (LockedCall σ α) := (st.log.filter (fun e => e.1 = i)).map (·.2.1)

/-- The call that goroutine `i` is in. -/
def LockedState.inside (st : LockedState σ α) (i : Nat) : Option (LockedCall σ α) := (st.threads i).now.map (·.1)

/-- A call comes to an end, by returning or by a panic, and leaves a state with `J`. -/
def Res.Ends (J : σ → Prop) : Res σ α → Prop
  | .ok _ s' => J s'
  | .panic s' => J s'
  | .diverge => False

/-- Every goroutine has made all its calls. -/
def LockedState.finished (st : LockedState σ α) : Prop := ∀ i, (st.threads i).now = none ∧ (st.threads i).todo = []

/-- How a goroutine has ended, if it has. -/
def Steps.ended : Steps σ α → Option (Outcome α)
  | .ret a => some (.ret a)
  | .panic => some .panic
  | .diverge => some .diverge
  | .act _ _ => none

end Stl4go
