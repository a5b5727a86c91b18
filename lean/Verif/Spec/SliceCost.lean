import Verif.Model.SliceCost
/-!
# How many element accesses a call makes

`x` is a function over the counting primitives of `Model/SliceCost.lean`, `y` the function of the model.
-/
namespace Stl4go
variable {T S α : Type}

/-- The same outcome, with a counter beside the state. -/
def Res.beside (n : Nat) : Res S α → Res (S × Nat) α
  | .ok a s => .ok a (s, n)
  | .panic s => .panic (s, n)
  | .diverge => .diverge

/-- In state `s`, `x` does what `y` does, and counts `c` accesses up to its end, whether it returns or panics. -/
def Counted (s : S) (x : GoM (S × Nat) α) (y : GoM S α) (c : Nat) : Prop := ∀ n, x (s, n) = (y s).beside (n + c)

/-- States with a memory in them. -/
class HasMem (S : Type) (T : outParam Type) where
  mem : S → Mem T
  put : S → Mem T → S
  mem_put : ∀ s m, mem (put s m) = m
  put_put : ∀ s m m', put (put s m) m' = put s m'
  put_mem : ∀ s, put s (mem s) = s

instance : HasMem (Mem T) T := ⟨fun m => m, fun _ m => m, fun _ _ => rfl, fun _ _ _ => rfl, fun _ => rfl⟩

instance : HasMem (VS T) T := ⟨fun s => s.mem, fun s m => { s with mem := m }, fun _ _ => rfl, fun _ _ _ => rfl, fun _ => rfl⟩

/-- `m'` holds what `n` holds at the addresses `L` and what it held before, `m`, elsewhere. -/
def OnlyAt (L : List Nat) (m m' n : Mem T) : Prop := m'.top = n.top ∧ (∀ k ∈ L, m'.cell k = n.cell k) ∧ ∀ k, k ∉ L → m'.cell k = m.cell k

/-- Outcome `r'` of a run that began with memory `m` is outcome `r`, apart from memory outside `L`, which has not changed. -/
def AlikeAt [HasMem S T] (L : List Nat) (m : Mem T) (r r' : Res S α) : Prop :=
  match r with
  | .ok a s => ∃ m', r' = .ok a (HasMem.put s m') ∧ OnlyAt L m m' (HasMem.mem s)
  | .panic s => ∃ m', r' = .panic (HasMem.put s m') ∧ OnlyAt L m m' (HasMem.mem s)
  | .diverge => r' = .diverge

/-- In state `s`, all that `y` depends on or changes in memory is at the addresses `L`: with other contents elsewhere it does the same, and leaves them alone. -/
def Sees [HasMem S T] (L : List Nat) (s : S) (y : GoM S α) : Prop :=
  ∀ m : Mem T, m.top = (HasMem.mem s).top → (∀ k ∈ L, m.cell k = (HasMem.mem s).cell k) → AlikeAt L m (y s) (y (HasMem.put s m))

/-- The call makes at most `k` element accesses. The count is not too low: it is at least the number of cells that what the call does depends on or that it changes. -/
def AtMost [HasMem S T] (k : Nat) (s : S) (x : GoM (S × Nat) α) (y : GoM S α) : Prop :=
  ∃ c L, c ≤ k ∧ Counted s x y c ∧ L.length ≤ c ∧ Sees L s y

/-- `PushBack` of each of `xs`. -/
def Vec.pushAll [GoZero T] (grow : Nat → Nat → Nat) : List T → GoM (VS T) Unit
  | [] => pure ()
  | x :: xs => do
    Vec.pushBack grow x
    Vec.pushAll grow xs

/-- The same, counting. -/
def Vec.pushAllAcc [GoZero T] (grow : Nat → Nat → Nat) : List T → GoM (VS T × Nat) Unit
  | [] => pure ()
  | x :: xs => do
    Vec.pushBackAcc grow x
    Vec.pushAllAcc grow xs

end Stl4go
