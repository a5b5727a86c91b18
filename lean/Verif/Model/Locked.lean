import Verif.Model.Basic
/-!
# Goroutines that guard a container with a lock

The containers have no locks of their own. Here a client puts a `sync.RWMutex` of the standard library around every call, as in `mu.RLock(); sl.Find(k); mu.RUnlock()` and `mu.Lock(); sl.Insert(k, v); mu.Unlock()`.
The body of a call is a tree of accesses, `Steps`; between two accesses any other goroutine may run. The lock is modelled by what its documentation says: it is held by any number of readers or by one writer, and a
goroutine that asks for it while it is held otherwise waits. (The lock of the standard library also makes new readers wait for a writer that waits; schedules in which they wait are among those here.)
A panic in a body releases the lock, as with `defer mu.Unlock()`.
-/
namespace Stl4go
variable {σ α β : Type}

/-- The rest of a call: its next access to the shared memory `σ`, or its end (`/repo/skiplist.go:91-118`). An access looks at the memory, which decides how the call goes on, and changes it. -/
inductive Steps (σ α : Type) where
  | ret (a : α)
  | panic
  | diverge
  | act (next : σ → Steps σ α) (upd : σ → σ)

/-- Statements one after another (`/repo/skiplist.go:91-118`). -/
def Steps.bind : Steps σ α → (α → Steps σ β) → Steps σ β
  | .ret a, f => f a
  | .panic, _ => .panic
  | .diverge, _ => .diverge
  | .act next upd, f => .act (fun s => (next s).bind f) upd

instance : Monad (Steps σ) where
  pure := Steps.ret
  bind := Steps.bind

/-- One access that only looks (`/repo/skiplist.go:294`). -/
def Steps.look (f : σ → Outcome α) : Steps σ α :=
  .act (fun s => match f s with
    | .ret a => .ret a
    | .panic => .panic
    | .diverge => .diverge) id

/-- One access that may change the memory (`/repo/skiplist.go:96`). -/
def Steps.change (f : σ → Outcome (σ × α)) : Steps σ α :=
  .act (fun s => match f s with
    | .ret (_, a) => .ret a
    | .panic => .panic
    | .diverge => .diverge) (fun s => match f s with
    | .ret (s', _) => s'
    | _ => s)

/-- All of it, while no other goroutine does anything (`/repo/skiplist.go:91-118`). -/
def Steps.run : Steps σ α → GoM σ α
  | .ret a, s => .ok a s
  | .panic, s => .panic s
  | .diverge, _ => .diverge
  | .act next upd, s => (next s).run (upd s)

/-- A call, and whether the client takes the lock for writing (`Lock`) or for reading (`RLock`) (`/repo/skiplist.go:91,122`, called between the two). -/
structure LockedCall (σ α : Type) where
  write : Bool
  body : Steps σ α

/-- A goroutine (`/repo/skiplist.go:91,122`, called by it): the calls it has yet to make, and, if it holds the lock, the call it is in and what is left of it. -/
structure LockedThread (σ α : Type) where
  todo : List (LockedCall σ α)
  now : Option (LockedCall σ α × Steps σ α)

/-- Everything (`/repo/skiplist.go:28-38` is the memory): the goroutines, the memory, who holds the lock, and the calls that are over, with their outcomes, in the order in which they released the lock. -/
structure LockedState (σ α : Type) where
  threads : Nat → LockedThread σ α
  mem : σ
  writer : Option Nat
  readers : List Nat
  log : List (Nat × LockedCall σ α × Outcome α)

/-- Goroutine `i` becomes `t` (`/repo/skiplist.go:91,122`). -/
def LockedState.put (st : LockedState σ α) (i : Nat) (t : LockedThread σ α) : LockedState σ α :=
  { st with threads := fun j => if j = i then t else st.threads j }

/-- Goroutine `i`, in call `c`, has come to its end `o` and releases the lock (client code around `/repo/skiplist.go:91,122`). -/
def LockedState.release (st : LockedState σ α) (i : Nat) (c : LockedCall σ α) (o : Outcome α) : LockedState σ α :=
  let st' := st.put i { todo := (st.threads i).todo, now := none }
  { st' with writer := if c.write then none else st.writer, readers := if c.write then st.readers else st.readers.erase i, log := st.log ++ [(i, c, o)] }

/-- Goroutine `i` wants the lock for call `c`, and if it gets it, begins (client code around `/repo/skiplist.go:91,122`). Otherwise it waits. -/
def LockedState.acquire (st : LockedState σ α) (i : Nat) (c : LockedCall σ α) (rest : List (LockedCall σ α)) : LockedState σ α :=
  let st' := st.put i { todo := rest, now := some (c, c.body) }
  if c.write then
    if st.writer.isNone && st.readers.isEmpty then { st' with writer := some i } else st
  else
    if st.writer.isNone then { st' with readers := i :: st.readers } else st

/-- The scheduler lets goroutine `i` do one thing: ask for the lock, access the memory, or release the lock (client code around `/repo/skiplist.go:91,122`). -/
def LockedState.step (st : LockedState σ α) (i : Nat) : LockedState σ α :=
  match (st.threads i).now with
  | some (c, .ret a) => st.release i c (.ret a)
  | some (c, .panic) => st.release i c .panic
  | some (_, .diverge) => st
  | some (c, .act next upd) => { st.put i { todo := (st.threads i).todo, now := some (c, next st.mem) } with mem := upd st.mem }
  | none =>
    match (st.threads i).todo with
    | [] => st
    | c :: rest => st.acquire i c rest

/-- A schedule (`/repo/skiplist.go:91,122`, called by several goroutines). -/
def LockedState.exec (st : LockedState σ α) (schedule : List Nat) : LockedState σ α := schedule.foldl LockedState.step st

/-- The beginning: nobody holds the lock, goroutine `i` has the calls `calls i` to make on memory `s` (`/repo/skiplist.go:40-45`). -/
def LockedState.start (calls : Nat → List (LockedCall σ α)) (s : σ) : LockedState σ α :=
  { threads := fun i => { todo := calls i, now := none }, mem := s, writer := none, readers := [], log := [] }

/-- One step of a goroutine without a lock (`/repo/skiplist.go:91-118`). -/
def Steps.step : Steps σ α → σ → Steps σ α × σ
  | .act next upd, s => (next s, upd s)
  | x, s => (x, s)

/-- Goroutines without a lock (`/repo/skiplist.go:91`, called by several): the scheduler lets them do one access each, in the order of the list. -/
def Steps.interleave (ts : Nat → Steps σ α) (s : σ) : (schedule : List Nat) → (Nat → Steps σ α) × σ
  | [] => (ts, s)
  | i :: rest =>
    let r := (ts i).step s
    Steps.interleave (fun j => if j = i then r.1 else ts j) r.2 rest

end Stl4go
