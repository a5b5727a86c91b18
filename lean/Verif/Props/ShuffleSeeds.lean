import Verif.Proofs.ShuffleSeeds
import Verif.Props.Shuffle
/-!
# C193: a generator with few states cannot give every arrangement

What `rand.Shuffle` asks for is computed from the state the generator is in when `Shuffle` is called (`/repo/transform.go:212`). Here the states are
the numbers below `S`, and `asks s` is any list of pairs: nothing is assumed of how the pairs are computed from the state.
-/
namespace Stl4go
variable {T : Type}

/-- What `Shuffle` makes of the slice in the state `s`, if it returns. -/
def ShuffledTo (asks : Nat → List (Nat × Nat)) (a : Sl) (m : Mem T) (s : Nat) (ys : List T) : Prop :=
  ∃ m', shuffle a (asks s) m = .ok () m' ∧ a.read m' = ys

/-- C193: of the `n!` arrangements of the distinct elements of a slice at most as many as there are states can be the result, however the calls of
`swap` are computed from the state: `n! - S` different ones are never seen. -/
theorem C193_count (asks : Nat → List (Nat × Nat)) (S : Nat) (a : Sl) (m : Mem T) (hn : (a.read m).Nodup) :
    ∃ missed : List (List T), missed.Nodup ∧ (∀ ys ∈ missed, ys.Perm (a.read m) ∧ ∀ s < S, ¬ ShuffledTo asks a m s ys) ∧
      fac a.len - S ≤ missed.length := by
  classical
  let result : Nat → List T := fun s => match shuffle a (asks s) m with
    | .ok _ m' => a.read m'
    | _ => []
  obtain ⟨missed, h1, h2, h3⟩ := arrangements_missed hn ((List.range S).map result)
  refine ⟨missed, h1, fun ys hy => ⟨(h2 ys hy).1, fun s hs ⟨m', hr, he⟩ => (h2 ys hy).2 (List.mem_map.2 ⟨s, List.mem_range.2 hs, ?_⟩)⟩, ?_⟩
  · simp only [result, hr, he]
  · have hl : (a.read m).length = a.len := by simp
    rw [hl, List.length_map, List.length_range] at h3
    omega

/-- C193: with fewer than `n!` states there is an arrangement of the distinct elements of a slice that no state gives. -/
theorem C193_missed (asks : Nat → List (Nat × Nat)) (S : Nat) (a : Sl) (m : Mem T) (hn : (a.read m).Nodup) (hS : S < fac a.len) :
    ∃ ys : List T, ys.Perm (a.read m) ∧ ∀ s < S, ¬ ShuffledTo asks a m s ys := by
  obtain ⟨missed, _, hm, hl⟩ := C193_count asks S a m hn
  match missed, hm, hl with
  | [], _, hl => exact absurd hl (by simp only [List.length_nil]; omega)
  | y :: _, hm, _ => exact ⟨y, hm y List.mem_cons_self⟩

/-- C193: `n!` states are enough: there are calls of `swap`, the same for all slices of `n` elements and those of some possible draw in each state,
such that each arrangement of the elements of such a slice is given by some state. -/
theorem C193_enough (n : Nat) : ∃ asks : Nat → List (Nat × Nat), (∀ s < fac n, ∃ js, FYDraws n js ∧ asks s = fyPairs n js) ∧
    ∀ (a : Sl) (m : Mem T), a.len = n → (a.read m).Nodup → ∀ ys : List T, ys.Perm (a.read m) → ∃ s < fac n, ShuffledTo asks a m s ys := by
  refine ⟨fun s => fyPairs n ((allDraws n).getD s []), fun s hs => ?_, fun a m ha hn ys hy => ?_⟩
  · have h : s < (allDraws n).length := by rwa [allDraws_length]
    exact ⟨_, (mem_allDraws n _).1 (by rw [List.getD_eq_getElem?_getD, List.getElem?_eq_getElem h]; exact List.getElem_mem h), rfl⟩
  · subst ha
    obtain ⟨js, ⟨hj, m', hr, he⟩, _⟩ := C154_distinct a m hn ys hy
    obtain ⟨s, hs, hg⟩ := List.getElem_of_mem ((mem_allDraws _ _).2 hj)
    refine ⟨s, by rwa [allDraws_length] at hs, m', ?_, he⟩
    show shuffle a (fyPairs a.len ((allDraws a.len).getD s [])) m = _
    rw [List.getD_eq_getElem?_getD, List.getElem?_eq_getElem hs, hg]
    exact hr

/-- C193: a generator started from one of `2^31 - 1` seeds misses an arrangement of any 13 or more distinct elements, one with 64 bits of state of any
21 or more. -/
theorem C193_sizes (asks : Nat → List (Nat × Nat)) (a : Sl) (m : Mem T) (hn : (a.read m).Nodup) :
    (13 ≤ a.len → ∃ ys : List T, ys.Perm (a.read m) ∧ ∀ s < 2 ^ 31 - 1, ¬ ShuffledTo asks a m s ys) ∧
    (21 ≤ a.len → ∃ ys : List T, ys.Perm (a.read m) ∧ ∀ s < 2 ^ 64, ¬ ShuffledTo asks a m s ys) := by
  refine ⟨fun h => C193_missed asks _ a m hn (Nat.lt_of_lt_of_le (by decide +kernel) (fac_mono h)),
    fun h => C193_missed asks _ a m hn (Nat.lt_of_lt_of_le (by decide +kernel) (fac_mono h))⟩

/-! ## Concrete cases -/

/-- With 12 and 20 elements that many states are not too few. -/
example : fac 12 ≤ 2 ^ 31 - 1 ∧ 2 ^ 31 - 1 < fac 13 ∧ fac 20 ≤ 2 ^ 64 ∧ 2 ^ 64 < fac 21 := by decide +kernel

/-- Three elements, a generator with five states: the one arrangement it misses. -/
example : ((List.range 5).map (fun s => match shuffle ⟨0, 3, 3⟩ (fyPairs 3 ((allDraws 3).getD s []))
      { cell := fun i => [1, 2, 3].getD i 0, top := 3 } with
    | .ok _ m' => Sl.read m' ⟨0, 3, 3⟩
    | _ => [])) = [[2, 3, 1], [3, 2, 1], [3, 1, 2], [1, 3, 2], [2, 1, 3]] := by decide +kernel

end Stl4go
