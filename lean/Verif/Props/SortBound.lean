import Verif.Proofs.SortBound
import Verif.Props.Sort
/-!
# Property C186: how often a sort has to compare (`/repo/sort.go`)

`sort` is any algorithm that keeps the contract of `sort.Sort`, as in C62; one that keeps the contract of `sort.Stable` does, by `StableContract.sorts`. Insertion sort keeps both.
-/
namespace Stl4go
variable {T τ : Type}

/-- C186: sorting `n` elements, in whatever order they are, calls the comparison function at least `n - 1` times. -/
theorem C186_least {sort : Nat → SortProg} (hs : SortContract sort) {l : T → T → Bool} (hw : StrictWeak l) (a : Sl) (s : HS T Nat) :
    (∃ s', sortFuncA sort a (countedLess l) s = .ok () s' ∧ s.st + (a.len - 1) ≤ s'.st) ∧
      (∃ s', stableSortFuncA sort a (countedLess l) s = .ok () s' ∧ s.st + (a.len - 1) ≤ s'.st) := by
  obtain ⟨out, ho, -⟩ := hs T l hw (a.read s.mem)
  have h := hs.asks hw (a.read s.mem)
  rw [Sl.read_length] at ho h
  have e := goSort_counted (a := a) l sort s ho
  exact ⟨⟨_, e, by dsimp only; omega⟩, ⟨_, e, by dsimp only; omega⟩⟩

/-- C186: no algorithm avoids `log₂ n!` calls: for every length there is an arrangement of the numbers below it that takes as many, and is sorted by them. -/
theorem C186_worst {sort : Nat → SortProg} (hs : SortContract sort) (a : Sl) (m : Mem Nat) (h : Sl) :
    ∃ (xs : List Nat) (c : Nat), xs.Perm (List.range a.len) ∧ a.len.factorial ≤ 2 ^ c ∧
      sortFuncA sort a (countedLess (fun x y => decide (x < y))) ⟨m.write a.off xs, 0, h⟩ = .ok () ⟨m.write a.off (List.range a.len), c, h⟩ ∧
      stableSortFuncA sort a (countedLess (fun x y => decide (x < y))) ⟨m.write a.off xs, 0, h⟩ = .ok () ⟨m.write a.off (List.range a.len), c, h⟩ := by
  obtain ⟨xs, hp, ho, hc⟩ := hs.worst a.len
  have e := SortProg.run_counted (a := a) _ (sort a.len) m h 0 (by simpa using hp.length_eq) ho
  rw [Nat.zero_add] at e
  exact ⟨xs, _, hp, hc, e, e⟩

/-- C186: with a nil comparison function, sorting two or more elements panics; by then the elements may have been exchanged, but none is lost, and nothing else has changed. -/
theorem C186_nil {sort : Nat → SortProg} (hs : SortContract sort) {a : Sl} (h2 : 2 ≤ a.len) (s : HS T τ) :
    ∃ m', Rearranged s.mem m' a ∧ sortFuncA sort a (fun _ _ => nilCall) s = .panic ⟨m', s.st, s.heap⟩ ∧
      stableSortFuncA sort a (fun _ _ => nilCall) s = .panic ⟨m', s.st, s.heap⟩ := by
  have hw : StrictWeak (fun _ _ : T => false) := ⟨fun _ => rfl, (fun _ _ _ h => nomatch h), fun _ _ _ _ _ _ _ => rfl⟩
  obtain ⟨out, ho, -⟩ := hs T _ hw (a.read s.mem)
  have h := hs.asks hw (a.read s.mem)
  rw [Sl.read_length] at ho h
  obtain ⟨ys, hp, e⟩ := SortProg.run_nil (a := a) (τ := τ) _ (sort a.len) s.mem s.heap s.st (by simp) ho (fun e => by rw [e] at h; simp at h; omega)
  rw [Sl.write_read] at e
  exact ⟨_, Rearranged.of_write (by simpa using hp.length_eq) hp, e, e⟩

/-- Insertion sort on four elements: three calls if they are sorted, six if they are in reverse, which is at least `log₂ 24`; and it panics with a nil function. -/
example : (let a : Sl := ⟨1, 4, 4⟩
    let run : List Nat → Nat := fun xs => match sortFuncA insertionProg a (countedLess (fun x y => decide (x < y))) ⟨(⟨fun _ => 0, 6⟩ : Mem Nat).write 1 xs, 0, a⟩ with
      | .ok _ s => s.st
      | _ => 99
    (run [0, 1, 2, 3], run [3, 2, 1, 0], match sortFuncA insertionProg a (fun _ _ => nilCall) (⟨⟨fun k => k, 6⟩, (), a⟩ : HS Nat Unit) with
      | .panic _ => true
      | _ => false)) = (3, 6, true) := by decide +kernel

example : SortContract insertionProg := insertion_stable.sorts

end Stl4go
