import Verif.Proofs.Growth
/-!
# C139: what growing costs

Memory allocated during a history is the growth of `mem.top`; it bounds the number of elements copied to new arrays. The theorems are about histories of any
length from any state, with calls that panic and recover, comparison functions with effects, and callbacks.
-/
namespace Stl4go
variable {T τ : Type} [GoZero T]

/-- Whatever a stack goes through, all the memory it allocated on the way is at most five times what its array grew by; the array never shrinks. Popping and pushing at
a full array does not allocate again and again. -/
theorem C139_stack (grow : Nat → Nat → Nat) (hg : Geometric grow) (s : VS T) (ops : List (KOp T)) (h : ∀ op ∈ ops, op.plain = true) :
    s.v.cap ≤ (Stk.execAll grow s ops).v.cap ∧ (Stk.execAll grow s ops).mem.top - s.mem.top ≤ 5 * ((Stk.execAll grow s ops).v.cap - s.v.cap) := by
  have p := Stk.execAll_paid hg 0 ops s h
  exact ⟨p.cap, by have := p.top; have := p.cap; omega⟩

/-- The same for a vector, beside the slices made for the arguments of `Append`. Histories without `Reserve`, `Shrink` and `Insert`, which ask for an array of a given
size. Any ranges, also upside down, may be given to the removing methods. -/
theorem C139_vector (grow : Nat → Nat → Nat) (hg : Geometric grow) (s : VS T) (ops : List (VOp T)) (h : ∀ op ∈ ops, op.plain = true) :
    s.v.cap ≤ (Vec.execAll grow s ops).v.cap ∧
    (Vec.execAll grow s ops).mem.top - s.mem.top ≤ (ops.map VOp.args).sum + 5 * ((Vec.execAll grow s ops).v.cap - s.v.cap) := by
  have p := Vec.execAll_paid hg 0 ops s h
  exact ⟨p.cap, by have := p.top; have := p.cap; omega⟩

/-- The same for a priority queue, of either kind, with any comparison function: one with a state, or that panics. -/
theorem C139_queue (grow : Nat → Nat → Nat) (hg : Geometric grow) (impl : PQImplM T τ) (s : HS T τ) (ops : List (PQOp T)) :
    s.heap.cap ≤ (PQM.execAll grow impl s ops).2.heap.cap ∧
    (PQM.execAll grow impl s ops).2.mem.top - s.mem.top ≤ 5 * ((PQM.execAll grow impl s ops).2.heap.cap - s.heap.cap) := by
  have p := PQM.execAll_paid hg 0 impl ops s
  exact ⟨p.cap, by have := p.top; have := p.cap; omega⟩

/-- With a growth policy that is modest as well, memory allocated is linear in the number of values added, whatever else the history does. -/
theorem C139_total (grow : Nat → Nat → Nat) (hg : Geometric grow) (k : Nat) (hm : Modest grow k) :
    (∀ (s : VS T) (ops : List (KOp T)), (∀ op ∈ ops, op.plain = true) →
      (Stk.execAll grow s ops).mem.top ≤ s.mem.top + 10 * (s.v.len + (ops.map KOp.adds).sum) + 5 * k) ∧
    (∀ (s : VS T) (ops : List (VOp T)), (∀ op ∈ ops, op.plain = true) → (∀ op ∈ ops, op.Valid) →
      (Vec.execAll grow s ops).mem.top ≤ s.mem.top + (ops.map VOp.args).sum + 10 * (s.v.len + (ops.map VOp.adds).sum) + 5 * k) ∧
    (∀ (impl : PQImplM T τ) (s : HS T τ) (ops : List (PQOp T)),
      (PQM.execAll grow impl s ops).2.mem.top ≤ s.mem.top + 10 * (s.heap.len + (ops.map PQOp.adds).sum) + 5 * k) := by
  refine ⟨fun s ops h => ?_, fun s ops h hv => ?_, fun impl s ops => ?_⟩
  · have p := Stk.execAll_paid hg k ops s h
    have := p.top; have := p.tight hm; omega
  · have p := Vec.execAll_paid hg k ops s h
    have := p.top; have := p.tight ⟨hm, hv⟩; omega
  · have p := PQM.execAll_paid hg k impl ops s
    have := p.top; have := p.tight hm; omega

/-- Go's runtime has such a policy. -/
theorem C139_go : Geometric goGrow ∧ Modest goGrow 192 := ⟨goGrow_geometric, goGrow_modest⟩

/-- While there is room nothing is allocated and the vector keeps its array; the values go behind the elements. -/
theorem C139_room (grow : Nat → Nat → Nat) (s : VS T) (xs : List T) (h : s.v.len + xs.length ≤ s.v.cap) :
    Vec.execAll grow s (xs.map .pushBack) = ⟨s.mem.write (s.v.off + s.v.len) xs, { s.v with len := s.v.len + xs.length }⟩ := by
  obtain ⟨h1, h2⟩ := Vec.pushAll_room (grow := grow) xs s h
  cases e : Vec.execAll grow s (xs.map .pushBack)
  rw [e] at h1 h2
  simp only at h1 h2
  rw [h1, h2]

/-- `Reserve(l)` makes room for `l` elements in all: pushes up to there allocate nothing more. -/
theorem C139_reserve (grow : Nat → Nat → Nat) (s : VS T) (hw : s.v.WF s.mem) (l : Nat) (xs : List T) (h : s.v.len + xs.length ≤ l) :
    (Vec.execAll grow s (.reserve l :: xs.map .pushBack)).mem.top = s.mem.top + (if s.v.cap < l then l else 0) ∧
    (Vec.execAll grow s (.reserve l :: xs.map .pushBack)).v.off = (Vec.exec grow s (.reserve l)).2.v.off := by
  have e : ∃ s1, Vec.exec grow s (.reserve l) = (.unit, s1) ∧ s1.v.len = s.v.len ∧ l ≤ s1.v.cap ∧ s1.mem.top = s.mem.top + (if s.v.cap < l then l else 0) := by
    by_cases hc : s.v.cap < l
    · refine ⟨_, by simp only [Vec.exec, VS.observe, Vec.reserve, GoM.bind_def, VS.recv, VS.on, Sl.make, if_pos (show (s.v.cap : Int) < l by omega),
        if_pos (show (0 : Int) ≤ s.v.len ∧ (s.v.len : Int) ≤ l by have := hw.1; omega), Sl.copy, VS.assign]; rfl, ?_, ?_, ?_⟩
      · simp only; omega
      · simp only; omega
      · simp only [Mem.write_top, Mem.alloc_top, List.length_replicate, if_pos hc]; omega
    · refine ⟨s, by simp only [Vec.exec, VS.observe, Vec.reserve, GoM.bind_def, VS.recv, if_neg (show ¬ (s.v.cap : Int) < l by omega), GoM.pure_apply], rfl, by omega, by simp [hc]⟩
  obtain ⟨s1, e, hl, hc, ht⟩ := e
  simp only [Vec.execAll, e]
  rw [C139_room grow s1 xs (by omega)]
  exact ⟨ht, rfl⟩

/-- `Insert` is not like that: at a full array it makes one of exactly the size needed, so the next `Insert` moves everything again, at the end as well. `n` single
insertions, at any positions, into a vector that has `l` elements and no more room allocate `n*(2*l+n+3)/2` cells, whatever the growth policy. -/
theorem C139_insert (grow : Nat → Nat → Nat) (s : VS T) (hw : s.v.WF s.mem) (hf : s.v.len = s.v.cap) (ops : List (Nat × T))
    (hp : ∀ j (h : j < ops.length), ops[j].1 ≤ s.v.len + j) :
    2 * ((Vec.execAll grow s (ops.map (fun p => .insert p.1 [p.2]))).mem.top - s.mem.top) = ops.length * (2 * s.v.len + ops.length + 3) := by
  have := (Vec.insertAll_top (grow := grow) ops s hw hf hp).1
  omega

/-! ## Cases -/

/-- A memory with one cell used by something else, and a nil vector. -/
def growStart : VS Nat := { mem := { cell := fun _ => 0, top := 1 }, v := Sl.empty }

/-- Capacity and memory allocated after a history. -/
def growTrace (grow : Nat → Nat → Nat) (ops : List (VOp Nat)) : Nat × Nat :=
  let s := Vec.execAll grow growStart ops
  (s.v.cap, s.mem.top - 1)

/-- Ten pushes with Go's policy: arrays of 1, 2, 4, 8 and 16. -/
example : growTrace goGrow ((List.range 10).map .pushBack) = (16, 31) := by decide +kernel

/-- The same values by `Insert` at the end: ten arguments, and arrays of every size up to 10. -/
example : growTrace goGrow ((List.range 10).map (fun (i : Nat) => .insert i [i])) = (10, 65) := by decide +kernel

/-- `hg` is needed: a runtime that gives exactly what is asked makes pushing quadratic. -/
example : growTrace (fun _ n => n) ((List.range 10).map .pushBack) = (10, 55) ∧ ¬ Geometric (fun _ n => n) :=
  ⟨by decide +kernel, fun h => absurd (h 5 6 (by omega)) (by decide)⟩

/-- A history with a panic, removals and an upside-down range, which makes the vector longer. -/
def growHistory : List (VOp Nat) :=
  [.pushBack 1, .pushBack 2, .append [3, 4, 5], .at 9, .popBack, .removeRange 3 1, .removeIf (fun _ x => x == 2), .clear, .pushBack 6]

example : (∀ op ∈ growHistory, op.plain = true) := by decide
example : growTrace goGrow growHistory = (10, 21) := by decide +kernel

/-- A queue whose comparison function counts its calls and panics at the third. -/
def growLess : LessM Nat Nat := fun x y t => if t = 2 then .panic 3 else .ok (decide (x < y)) (t + 1)

def growQueue : Nat × Nat × Nat :=
  let s := (PQM.execAll goGrow (.func growLess) (⟨⟨fun _ => 0, 1⟩, 0, Sl.empty⟩ : HS Nat Nat) [.push 3, .push 2, .push 1, .push 0, .pop]).2
  (s.heap.cap, s.mem.top, s.st)

example : growQueue = (4, 8, 5) := by decide +kernel

end Stl4go
