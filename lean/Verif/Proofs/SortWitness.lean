import Verif.Proofs.Sort
/-! # An algorithm meeting the contracts of `sort.Sort` and `sort.Stable`: insertion sort -/
namespace Stl4go
variable {T : Type} {less : T → T → Bool}

/-- `for j := i; j > 0 && Less(j, j-1); j-- { Swap(j, j-1) }`, then go on with `k`. -/
def sinkProg (k : SortProg) : (j : Nat) → SortProg
  | 0 => k
  | j + 1 => .less (j + 1) j (fun b => if b then .swap (j + 1) j (sinkProg k j) else k)

/-- The steps for positions `i`, `i+1`, ... -/
def insertionFrom : (rest i : Nat) → SortProg
  | 0, _ => .done
  | rest + 1, i => sinkProg (insertionFrom rest (i + 1)) i

/-- Insertion sort. -/
def insertionProg (n : Nat) : SortProg := insertionFrom n 0

theorem sinkProg_eq (k : SortProg) (x : T) (suf : List T) : ∀ r : List T,
    (sinkProg k r.length).onList less (r.reverse ++ x :: suf) = k.onList less (insertLast less x r ++ suf) := by
  intro r
  induction r generalizing suf with
  | nil => simp [sinkProg, insertLast]
  | cons y r ih =>
    have hy : ((y :: r).reverse ++ x :: suf)[r.length]? = some y := by simp
    have hx : ((y :: r).reverse ++ x :: suf)[r.length + 1]? = some x := by
      rw [List.getElem?_append_right (by simp)]
      simp
    simp only [List.length_cons, sinkProg, SortProg.onList, hy, hx]
    cases h : less x y with
    | false => simp [insertLast, h]
    | true =>
      simp only [if_true, SortProg.onList, hy, hx]
      have e : (((y :: r).reverse ++ x :: suf).set (r.length + 1) y).set r.length x = r.reverse ++ x :: (y :: suf) := by
        have : (y :: r).reverse ++ x :: suf = r.reverse ++ y :: x :: suf := by simp
        rw [this, List.set_append_right _ _ (by simp), List.set_append_right _ _ (by simp)]
        simp
      rw [e, ih (y :: suf)]
      simp [insertLast, h]

theorem insertLast_length (x : T) (r : List T) : (insertLast less x r).length = r.length + 1 := by
  induction r with
  | nil => rfl
  | cons y r ih =>
    unfold insertLast
    split <;> simp [ih]

theorem insertionFrom_eq (b : List T) : ∀ acc : List T,
    (insertionFrom b.length acc.length).onList less (acc ++ b) = some (b.foldl (fun out x => insertLast less x out.reverse) acc) := by
  induction b with
  | nil => intro acc; simp [insertionFrom, SortProg.onList]
  | cons x b ih =>
    intro acc
    have h := sinkProg_eq (less := less) (insertionFrom b.length (acc.length + 1)) x b acc.reverse
    rw [List.length_reverse, List.reverse_reverse] at h
    simp only [List.length_cons, insertionFrom, h, List.foldl_cons]
    have := ih (insertLast less x acc.reverse)
    rw [insertLast_length, List.length_reverse] at this
    exact this

theorem insertionProg_eq (a : List T) : (insertionProg a.length).onList less a = some (sortedStably less a) := insertionFrom_eq a []

theorem insertion_stable : StableContract insertionProg := fun _ _ hw a =>
  ⟨_, insertionProg_eq a, (sortedStably_spec hw a).1, (sortedStably_spec hw a).2.1⟩

theorem insertion_sorts : SortContract insertionProg := fun _ _ hw a => ⟨_, insertionProg_eq a, (sortedStably_spec hw a).1⟩

theorem insertion_inside : StaysInside insertionProg := fun _ _ a => ⟨_, insertionProg_eq a⟩

end Stl4go
