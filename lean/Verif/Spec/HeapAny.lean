import Verif.Model.HeapAny
/-! # What a heap function may do when its comparison function can reach the heap -/
namespace Stl4go
variable {T τ α : Type}

/-- The state with the elements `i` and `j` of the slice `a` exchanged. -/
def HS.exchange (a : Sl) (i j : Nat) (s : HS T τ) : HS T τ :=
  { s with mem := { s.mem with cell := fun k => if k = a.off + j then s.mem.cell (a.off + i) else if k = a.off + i then s.mem.cell (a.off + j) else s.mem.cell k } }

/-- `s2` comes from `s` by steps of two sorts only: a call of `less` with two elements that are in the slice `a` at that moment, and an
exchange of two elements of `a`. `n` is the number of calls. -/
inductive Acts (less : LessA T τ) (a : Sl) : Nat → HS T τ → HS T τ → Prop
  | stop (s : HS T τ) : Acts less a 0 s s
  | call {n : Nat} {s s1 s2 : HS T τ} {b : Bool} (i j : Nat) (hi : i < a.len) (hj : j < a.len)
      (h : less (s.mem.cell (a.off + i)) (s.mem.cell (a.off + j)) s = .ok b s1) (r : Acts less a n s1 s2) : Acts less a (n + 1) s s2
  | swap {n : Nat} {s s2 : HS T τ} (i j : Nat) (hi : i < a.len) (hj : j < a.len) (r : Acts less a n (s.exchange a i j) s2) : Acts less a n s s2

/-- A run that only compares and exchanges elements of `a`, with at most `bound` calls of `less`: it returns (and then `Q` holds of what it returns),
or the last of the calls panics, or the last of the calls does not return. -/
def HeapRuns (less : LessA T τ) (a : Sl) (bound : Nat) (s : HS T τ) (Q : α → HS T τ → Prop) : Res (HS T τ) α → Prop
  | .ok v s' => Q v s' ∧ ∃ n, n ≤ bound ∧ Acts less a n s s'
  | .panic s' => ∃ n s1 i j, n < bound ∧ i < a.len ∧ j < a.len ∧ Acts less a n s s1 ∧ less (s1.mem.cell (a.off + i)) (s1.mem.cell (a.off + j)) s1 = .panic s'
  | .diverge => ∃ n s1 i j, n < bound ∧ i < a.len ∧ j < a.len ∧ Acts less a n s s1 ∧ less (s1.mem.cell (a.off + i)) (s1.mem.cell (a.off + j)) s1 = .diverge

/-- The end of `PopHeapFunc` and `RemoveHeapFunc` after the elements were moved: the element behind the first `n` of `h` is returned, and the variable becomes the first `n`, whatever it
was assigned in between. -/
def cutTo (h : Sl) (n : Nat) : Res (HS T τ) Unit → Res (HS T τ) T
  | .ok _ s => .ok (s.mem.cell (h.off + n)) { s with heap := { h with len := n } }
  | .panic s => .panic s
  | .diverge => .diverge

/-- `h1` over `m1` is the slice `h` over `m` with `v` behind it: in the same array if that had room, else in a new array. -/
structure AddedLast (m : Mem T) (h : Sl) (v : T) (m1 : Mem T) (h1 : Sl) : Prop where
  wf : h1.WF m1
  read : h1.read m1 = h.read m ++ [v]
  room : h.len < h.cap → h1 = { h with len := h.len + 1 } ∧ m1.top = m.top ∧ ∀ k, k ≠ h.off + h.len → m1.cell k = m.cell k
  full : h.len = h.cap → m.top ≤ h1.off ∧ ∀ k, k < m.top → m1.cell k = m.cell k

/-- The elements `c`, …, `d - 1` of `a` were each compared with their parent, in this order, and the answer was `true` each time. -/
inductive AskedPairs (less : LessA T τ) (a : Sl) : (c d : Nat) → HS T τ → HS T τ → Prop
  | stop (c : Nat) (s : HS T τ) : AskedPairs less a c c s s
  | call {c d : Nat} {s s1 s2 : HS T τ} (h : less (s.mem.cell (a.off + (c - 1) / 2)) (s.mem.cell (a.off + c)) s = .ok true s1)
      (r : AskedPairs less a (c + 1) d s1 s2) : AskedPairs less a c d s s2

end Stl4go
