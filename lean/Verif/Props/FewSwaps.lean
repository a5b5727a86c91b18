import Verif.Proofs.FewSwaps
import Verif.Props.Shuffle
/-!
# C194: the fewest swaps for Shuffle and Reverse

`shuffle a ds` makes the swaps `ds` one after the other: `a[i], a[j] = a[j], a[i]` as in `/repo/transform.go:213` and `/repo/transform.go:222`.
-/
namespace Stl4go
variable {T : Type}

/-- C194: whatever the swaps are and however they are chosen, those that move the first of `n` distinct elements behind the others are at least `n - 1`. -/
theorem C194_needed (a : Sl) (m : Mem T) (x : T) (xs : List T) (hr : a.read m = x :: xs) (hn : (x :: xs).Nodup) (ds : List (Nat × Nat)) (m' : Mem T)
    (h : shuffle a ds m = .ok () m') (he : a.read m' = xs ++ [x]) : a.len - 1 ≤ ds.length := by
  have hl : (a.read m).length = a.len := by simp
  rw [hr, List.length_cons] at hl
  have := shuffle_result h
  rw [he, hr] at this
  have := rotate_takes hn this.symm
  omega

/-- C194: `n - 1` swaps are enough for each arrangement, and `Shuffle` makes exactly as many, whatever is drawn. -/
theorem C194_shuffle (a : Sl) (m : Mem T) :
    (∀ js, FYDraws a.len js → (fyPairs a.len js).length = a.len - 1 ∧ ∃ m', shuffle a (fyPairs a.len js) m = .ok () m') ∧
    ((a.read m).Nodup → ∀ ys : List T, ys.Perm (a.read m) → ∃ js, FYDraws a.len js ∧
      ∃ m', shuffle a (fyPairs a.len js) m = .ok () m' ∧ a.read m' = ys) := by
  refine ⟨fun js hj => ⟨fyPairs_length _ _ hj, ?_⟩, fun hn ys hy => ?_⟩
  · have := shuffle_run a m (fyPairs a.len js) (a.read m) (by simp) (fyPairs_lt _ _ hj)
    rw [Sl.write_read] at this
    exact ⟨_, this⟩
  · obtain ⟨js, h, _⟩ := C154_distinct a m hn ys hy
    exact ⟨js, h⟩

/-- C194: if the elements at the positions `ps` are not the old ones after some swaps, these are at least half as many. -/
theorem C194_moved (a : Sl) (m : Mem T) (ds : List (Nat × Nat)) (m' : Mem T) (h : shuffle a ds m = .ok () m') (ps : List Nat) (hn : ps.Nodup)
    (hp : ∀ p ∈ ps, (a.read m')[p]? ≠ (a.read m)[p]?) : ps.length ≤ 2 * ds.length := by
  rw [shuffle_result h] at hp
  exact moved_take ps hn hp

/-- C194: `Reverse` makes the swaps of the mirrored positions, half as many as there are elements, and no fewer swaps reverse distinct elements. -/
theorem C194_reverse (a : Sl) (m : Mem T) :
    reverse a m = shuffle a (mirrorPairs a.len) m ∧ (∃ m', reverse a m = .ok () m' ∧ a.read m' = (a.read m).reverse) ∧ (mirrorPairs a.len).length = a.len / 2 ∧
    ((a.read m).Nodup → ∀ ds m', shuffle a ds m = .ok () m' → a.read m' = (a.read m).reverse → a.len / 2 ≤ ds.length) := by
  refine ⟨by rw [reverse_swaps], ⟨_, reverse_eq a m, Sl.read_write_self _ _ _ (by simp)⟩, by simp [mirrorPairs], fun hn ds m' h he => ?_⟩
  have := reverse_takes hn ((shuffle_result h).symm.trans he)
  simpa using this

/-! ## Concrete cases -/

example : mirrorPairs 5 = [(0, 4), (1, 3)] := by decide

/-- Three swaps that move the first of four elements behind the others: no two do. -/
example : ∃ m', shuffle ⟨0, 4, 4⟩ [(0, 1), (1, 2), (2, 3)] ({ cell := fun i => i, top := 4 } : Mem Nat) = .ok () m' ∧
    Sl.read m' ⟨0, 4, 4⟩ = [1, 2, 3, 0] := ⟨_, rfl, by decide⟩

/-- With equal elements fewer swaps can be enough. -/
example : ∃ m', shuffle ⟨0, 3, 3⟩ [(0, 2)] ({ cell := fun i => if i = 0 then 1 else 0, top := 3 } : Mem Nat) = .ok () m' ∧
    Sl.read m' ⟨0, 3, 3⟩ = [0, 0, 1] := ⟨_, rfl, by decide⟩

end Stl4go
