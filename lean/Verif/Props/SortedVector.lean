import Verif.Proofs.SortedVector
import Verif.Proofs.SortWitness
import Verif.Props.SkipListSet
/-!
# C159: a vector kept sorted with the binary searches is a bag, and a set like `SkipListSet`

The client's programs (`SV.add` and so on, in `Spec/SortedVector.lean`) call `Vector` methods, the binary searches with a comparison function and
`StableSortFunc`. What they should do is said by `SBag.step` for the elements in the order of their arrival, which are not sorted.
-/
namespace Stl4go
variable {T : Type} {less : T → T → Bool} [GoZero T]

/-- C159: whatever is done with any number of sorted vectors, all results are those of bags, and each vector holds the elements of its bag in
ascending order, equivalent ones in the order of their arrival. -/
theorem C159_history (grow : Nat → Nat → Nat) {stable : Nat → SortProg} (hst : StableContract stable) (hw : StrictWeak less) (m : Mem T)
    (h : List (Nat × BagOp T)) (hv : ∀ o ∈ h, o.2.Valid less) :
    (SV.run grow stable less (VWorld.init m) h).1 = (SBag.after less (fun _ => []) h).1 ∧
    ∀ i, ((SV.run grow stable less (VWorld.init m) h).2.vars i).read (SV.run grow stable less (VWorld.init m) h).2.mem =
      sortedStably less ((SBag.after less (fun _ => []) h).2 i) := by
  obtain ⟨a, s', b, c⟩ := SV.run_inv grow hst hw h (VWInv.init m) (l := fun _ => []) (fun _ => BagRep.nil) hv
  exact ⟨a, fun i => by rw [b.read i]; exact (c i).eq hw⟩

/-- C159: the rest of the program is not touched. -/
theorem C159_others (grow : Nat → Nat → Nat) {stable : Nat → SortProg} (hst : StableContract stable) (hw : StrictWeak less) (m : Mem T)
    (h : List (Nat × BagOp T)) (hv : ∀ o ∈ h, o.2.Valid less) (k : Nat) (hk : k < m.top) :
    (SV.run grow stable less (VWorld.init m) h).2.mem.cell k = m.cell k := by
  obtain ⟨_, s', b, _⟩ := SV.run_inv grow hst hw h (VWInv.init m) (l := fun _ => []) (fun _ => BagRep.nil) hv
  exact (b.others k hk).2.1

/-- Taking out the least one again and again. -/
theorem SBag.popAll (hw : StrictWeak less) : ∀ (s l : List T), BagRep less l s → ∀ w : Nat → List T, w 0 = l →
    (SBag.after less w (List.replicate s.length (0, .popMin))).1 = s.map .val := by
  intro s
  induction s with
  | nil => intro l _ w _; rfl
  | cons x s ih =>
    intro l h w e
    have hs := h.eq hw
    have hrep := h.eraseP hw x
    rw [List.eraseP_cons_of_pos (like_self hw x)] at hrep
    simp only [List.length_cons, List.replicate_succ, SBag.after, SBag.step, e, ← hs, List.head?_cons, List.map_cons]
    rw [ih _ hrep _ (by simp)]

/-- Adding one after the other. -/
theorem SBag.after_adds (ops : List (Nat × BagOp T)) : ∀ (xs : List T) (w : Nat → List T),
    (SBag.after less w (xs.map (fun x => (0, .add x)) ++ ops)).1 =
      List.replicate xs.length .unit ++ (SBag.after less (fun j => if j = 0 then w 0 ++ xs else w j) ops).1 := by
  intro xs
  induction xs with
  | nil =>
    intro w
    have : (fun j => if j = 0 then w 0 ++ [] else w j) = w := by funext j; by_cases hj : j = 0 <;> simp [hj]
    rw [this]
    rfl
  | cons x xs ih =>
    intro w
    simp only [List.map_cons, List.cons_append, SBag.after, SBag.step]
    rw [ih]
    have : (fun j => if j = 0 then w 0 ++ [x] ++ xs else if j = 0 then w 0 ++ [x] else w j) = (fun j => if j = 0 then w 0 ++ x :: xs else w j) := by
      funext j
      by_cases hj : j = 0 <;> simp [hj]
    simp only [if_true] at this ⊢
    rw [this]
    rfl

/-- C159: a priority queue that is fair: elements are taken out in ascending order, equivalent ones in the order in which they were put in. -/
theorem C159_fifo (grow : Nat → Nat → Nat) {stable : Nat → SortProg} (hst : StableContract stable) (hw : StrictWeak less) (m : Mem T) (xs : List T) :
    (SV.run grow stable less (VWorld.init m) (xs.map (fun x => (0, .add x)) ++ List.replicate xs.length (0, .popMin))).1 =
      List.replicate xs.length .unit ++ (sortedStably less xs).map .val := by
  rw [(C159_history grow hst hw m _ ?_).1, SBag.after_adds]
  · congr 1
    have hl : xs.length = (sortedStably less xs).length := (sortedStably_spec hw xs).2.2.length_eq.symm
    rw [hl]
    exact SBag.popAll hw _ xs (BagRep.of hw xs) _ (by simp)
  · intro o ho
    rcases List.mem_append.1 ho with ho | ho
    · obtain ⟨x, _, rfl⟩ := List.mem_map.1 ho
      trivial
    · rw [List.eq_of_mem_replicate ho]
      trivial

/-- C159: with `BinarySearchFunc` before each insertion the vector is a set: every history of set operations gives the results that a
`SkipListSet` gives, and it holds the keys that the set has. -/
theorem C159_set (grow : Nat → Nat → Nat) {impl : SLImpl T} (hl : impl.Lawful) (m : Mem T) (h : List (SSOp T)) :
    ∃ s obs, SLSet.run impl newSkipListSet h = .ret (s, obs) ∧ (SV.setRun grow impl.less ⟨m, Sl.empty⟩ h).1 = obs.map some ∧
      SLSet.keys s = .ret (Sl.read (SV.setRun grow impl.less ⟨m, Sl.empty⟩ h).2.mem (SV.setRun grow impl.less ⟨m, Sl.empty⟩ h).2.v) := by
  obtain ⟨s, e⟩ := C31_history hl h
  have hr : Sl.read m Sl.empty = [] := rfl
  obtain ⟨a, b⟩ := SV.setRun_eq grow hl.weak h (m := m) (v := Sl.empty) (Fresh.nil m).wf (by rw [hr]; exact List.Pairwise.nil)
  rw [hr] at a b
  obtain ⟨L, h1, _, _, h2⟩ := C31_sorted hl ⟨_, e⟩
  exact ⟨s, _, e, a, by rw [b, h1, h2]⟩

/-! ## Examples -/

/-- Pairs by their first component. -/
def bagLess (x y : Int × Int) : Bool := decide (x.1 < y.1)

instance : GoZero (Int × Int) := ⟨(0, 0)⟩

theorem bagLess_weak : StrictWeak bagLess := by
  refine ⟨fun a => ?_, fun a b c => ?_, fun a b c => ?_⟩ <;> simp only [bagLess, decide_eq_true_eq, decide_eq_false_iff_not] <;> omega

def bagDemo : List (Nat × BagOp (Int × Int)) :=
  [(0, .addMany [(5, 0), (3, 0), (5, 1)]), (0, .add (3, 1)), (1, .add (9, 9)), (0, .add (4, 0)), (0, .values), (0, .count (5, 7)), (0, .rank (5, 7)),
   (0, .find (3, 7)), (0, .addNew (4, 7)), (0, .addNew (6, 0)), (0, .dropNewest (5, 7)), (0, .dropOldest (3, 7)), (0, .values), (0, .nth 1), (0, .nth 4),
   (0, .popMin), (0, .popMax), (0, .dropBetween (4, 7) (4, 7)), (0, .values), (1, .values), (1, .popMin), (1, .popMin)]

example : (∀ o ∈ bagDemo, o.2.Valid bagLess) ∧ (SV.run (fun _ n => 2 * n) insertionProg bagLess (VWorld.init { cell := fun _ => (0, 0), top := 0 }) bagDemo).1 =
    [.unit, .unit, .unit, .unit, .list [(3, 0), (3, 1), (4, 0), (5, 0), (5, 1)], .num 2, .num 3, .try_ (3, 0) true, .flag false, .flag true,
     .flag true, .flag true, .list [(3, 1), (4, 0), (5, 0), (6, 0)], .val (4, 0), .panicked, .val (3, 1), .val (6, 0), .num 1, .list [(5, 0)],
     .list [(9, 9)], .val (9, 9), .panicked] := by
  constructor
  · simp [bagDemo, BagOp.Valid, bagLess]
  · decide +kernel

example : (SV.setRun (fun _ n => 2 * n) (fun a b : Int => decide (a < b)) ⟨memOf [], Sl.empty⟩
    [.insertN [(0, 5), (0, 3), (0, 5)], .insert 0 4, .insert 0 3, .keys, .lowerBound 4, .upperBound 4, .removeN [3, 9], .has 3, .keys]).1 =
    [some (.num 2), some (.flag true), some (.flag false), some (.list [3, 4, 5]), some (.list [4, 5]), some (.list [5]), some (.num 1),
     some (.flag false), some (.list [4, 5])] := by decide +kernel

end Stl4go
