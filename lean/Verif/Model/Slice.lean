import Verif.Model.Basic
/-!
# Model of Go slices: memory, slice headers, the built-in functions

Nothing here models a particular function of `/repo`, so the lines cited are examples of uses; it fixes the meaning of `s[i]`, `s[lo:hi]`, `make`, `copy`, `append`, `clear` that
`transform.go`, `vector.go`, `stack.go` and `generate.go` are written in. All cells of element type `T` have one address space, each backing
array is a run of addresses, and a slice header is its first address, length and capacity. Slicing never passes the capacity, so a slice
never reaches another array. Sizes are unbounded: `make` and `append` never fail for lack of memory or because a length passes 2^63.
-/
namespace Stl4go
variable {T : Type}

/-- Memory, where the backing arrays of slices (`/repo/vector.go:7`) are: the cells below `top` have been allocated. -/
structure Mem (T : Type) where
  cell : Nat → T
  top : Nat

/-- Slice header, the value of a variable of a slice type (`/repo/vector.go:7`). A nil slice and an empty one behave alike here. -/
structure Sl where
  off : Nat
  len : Nat
  cap : Nat
deriving DecidableEq, Repr

/-- The slices a program can have: length within capacity, capacity within allocated memory (`/repo/vector.go:7`). -/
def Sl.WF (m : Mem T) (s : Sl) : Prop := s.len ≤ s.cap ∧ s.off + s.cap ≤ m.top

/-- The elements of a slice, what a `range` over it would visit (`/repo/vector.go:174`). -/
def Sl.read (m : Mem T) (s : Sl) : List T := (List.range s.len).map (fun k => m.cell (s.off + k))

/-- The values `xs` stored from address `off` on (the effect of `/repo/vector.go:134`). -/
def Mem.write (m : Mem T) (off : Nat) (xs : List T) : Mem T :=
  { m with cell := fun k => if off ≤ k then xs[k - off]?.getD (m.cell k) else m.cell k }

/-- A new array holding `xs` (the effect of `/repo/vector.go:60`). -/
def Mem.alloc (m : Mem T) (xs : List T) : Mem T := { m.write m.top xs with top := m.top + xs.length }

/-- `[]T{}` or nil (`/repo/transform.go:9`, `/repo/transform.go:135`). -/
def Sl.empty : Sl := { off := 0, len := 0, cap := 0 }

/-- `s[i]` (`/repo/vector.go:76`). -/
def Sl.get (s : Sl) (i : Int) : GoM (Mem T) T := fun m =>
  if 0 ≤ i ∧ i < s.len then .ok (m.cell (s.off + i.toNat)) m else .panic m

/-- `s[i] = v` (`/repo/vector.go:82`). -/
def Sl.put (s : Sl) (i : Int) (v : T) : GoM (Mem T) Unit := fun m =>
  if 0 ≤ i ∧ i < s.len then .ok () (m.write (s.off + i.toNat) [v]) else .panic m

/-- `s[lo:hi]`: bounded by the capacity; `s[lo:]` is `s[lo:len(s)]`, `s[:hi]` is `s[0:hi]` (`/repo/vector.go:156`). -/
def Sl.slice (s : Sl) (lo hi : Int) : GoM (Mem T) Sl := fun m =>
  if 0 ≤ lo ∧ lo ≤ hi ∧ hi ≤ s.cap then
    .ok { off := s.off + lo.toNat, len := (hi - lo).toNat, cap := s.cap - lo.toNat } m
  else .panic m

/-- The elements of a slice, read at once (the operand `x...` of `append`, `/repo/vector.go:121`). -/
def Sl.load (s : Sl) : GoM (Mem T) (List T) := fun m => .ok (s.read m) m

/-- `copy(dst, src)`: as if through a temporary, whatever the overlap (`/repo/vector.go:134`). -/
def Sl.copy (dst src : Sl) : GoM (Mem T) Unit := fun m =>
  .ok () (m.write dst.off ((src.read m).take dst.len))

/-- `make([]T, n, c)` (`/repo/vector.go:60`). -/
def Sl.make [GoZero T] (n c : Int) : GoM (Mem T) Sl := fun m =>
  if 0 ≤ n ∧ n ≤ c then .ok { off := m.top, len := n.toNat, cap := c.toNat } (m.alloc (List.replicate c.toNat GoZero.zero)) else .panic m

/-- A slice literal, also the slice made for the arguments of a variadic call (`/repo/vector.go:120`). -/
def Sl.lit (xs : List T) : GoM (Mem T) Sl := fun m =>
  .ok { off := m.top, len := xs.length, cap := xs.length } (m.alloc xs)

/-- `append(s, ys...)`: in place when the capacity suffices, else into a new array whose capacity the runtime chooses
(`grow oldCap needed`, at least `needed`) and whose unused part is zero (`/repo/vector.go:89`). -/
def Sl.append [GoZero T] (grow : Nat → Nat → Nat) (s : Sl) (ys : List T) : GoM (Mem T) Sl := fun m =>
  let n := s.len + ys.length
  if n ≤ s.cap then .ok { s with len := n } (m.write (s.off + s.len) ys)
  else
    let c := max n (grow s.cap n)
    .ok { off := m.top, len := n, cap := c } (m.alloc (s.read m ++ ys ++ List.replicate (c - n) GoZero.zero))

/-- `clear(s)` for a slice (`/repo/transform_fillzero_clear.go:10`). -/
def Sl.clear [GoZero T] (s : Sl) : GoM (Mem T) Unit := fun m =>
  .ok () (m.write s.off (List.replicate s.len GoZero.zero))

end Stl4go
