import Verif.Proofs.Shuffle
import Verif.Spec.Transform
/-!
# C154: every arrangement is equally likely after Shuffle

Trusted: `rand.Shuffle` calls `swap(i, j)` for `i = n-1, …, 1` with `j` drawn from `0, …, i`, each with the same probability and independently of
the others. Then every member of `allDraws n` has the probability `1 / n!`.
-/
namespace Stl4go
variable {T : Type}

/-- C154: what may be drawn is listed by `allDraws`, without repetitions: `n!` possibilities. -/
theorem C154_draws (n : Nat) : (∀ js, js ∈ allDraws n ↔ FYDraws n js) ∧ (allDraws n).Nodup ∧ (allDraws n).length = fac n :=
  ⟨mem_allDraws n, allDraws_nodup n, allDraws_length n⟩

/-- C154: if the elements are distinct, each arrangement of them is the result of exactly one of the possible draws. -/
theorem C154_distinct (a : Sl) (m : Mem T) (hn : (a.read m).Nodup) (ys : List T) (hp : ys.Perm (a.read m)) :
    ∃ js, (FYDraws a.len js ∧ ∃ m', shuffle a (fyPairs a.len js) m = .ok () m' ∧ a.read m' = ys) ∧
      ∀ ks, (FYDraws a.len ks ∧ ∃ m', shuffle a (fyPairs a.len ks) m = .ok () m' ∧ a.read m' = ys) → ks = js := by
  have hl : (a.read m).length = a.len := by simp
  obtain ⟨js, ⟨hj, hr⟩, hu⟩ := fy_unique a.len (a.read m) ys hl hn hp
  have run : ∀ ks, FYDraws a.len ks → shuffle a (fyPairs a.len ks) m = .ok () (m.write a.off (shuffleL (a.read m) (fyPairs a.len ks))) := by
    intro ks hk
    have := shuffle_run a m (fyPairs a.len ks) (a.read m) hl (fyPairs_lt _ _ hk)
    rwa [Sl.write_read] at this
  have rd : ∀ ks, a.read (m.write a.off (shuffleL (a.read m) (fyPairs a.len ks))) = shuffleL (a.read m) (fyPairs a.len ks) := fun ks =>
    Sl.read_write_self _ _ _ ((shuffleL_perm _ _).length_eq.trans hl)
  refine ⟨js, ⟨hj, _, run js hj, (rd js).trans hr⟩, fun ks ⟨hk, m', hm, hy⟩ => hu ks hk ?_⟩
  rw [run ks hk] at hm
  cases hm
  rw [← rd ks]
  exact hy

/-- C154: where an element goes depends on what is drawn only, not on the elements: there is a rule that gives for each possible draw which old
position each new position gets its element from, and each arrangement of the positions is given by exactly one draw. So what is said in
`C154_distinct` holds, with positions instead of elements, also for slices with equal elements. -/
theorem C154_positions (n : Nat) : ∃ place : List Nat → List Nat,
    (∀ (a : Sl) (m : Mem T), a.len = n → ∀ js, FYDraws n js → ∃ m', shuffle a (fyPairs n js) m = .ok () m' ∧
      (∀ k < n, ∀ p, (place js)[k]? = some p → (a.read m')[k]? = (a.read m)[p]?) ∧ OnlyIn m m' a) ∧
    (∀ js, FYDraws n js → (place js).Perm (List.range n)) ∧
    ∀ p : List Nat, p.Perm (List.range n) → ∃ js, (FYDraws n js ∧ place js = p) ∧ ∀ ks, (FYDraws n ks ∧ place ks = p) → ks = js := by
  refine ⟨fun js => shuffleL (List.range n) (fyPairs n js), ?_, fun js _ => shuffleL_perm _ _, ?_⟩
  · intro a m hn js hj
    subst hn
    have hl : (a.read m).length = a.len := by simp
    have h1 := shuffle_run a m (fyPairs a.len js) (a.read m) hl (fyPairs_lt _ _ hj)
    rw [Sl.write_read] at h1
    refine ⟨_, h1, ?_, onlyIn_write _ _ _ (by rw [(shuffleL_perm _ _).length_eq, hl]; exact Nat.le_refl _)⟩
    intro k _ p hp
    rw [Sl.read_write_self _ _ _ ((shuffleL_perm _ _).length_eq.trans hl)]
    have h2 : a.read m = (List.range a.len).map (fun k => m.cell (a.off + k)) := rfl
    have hpl : p < a.len := by
      have := (shuffleL_perm (fyPairs a.len js) (List.range a.len)).subset (List.mem_of_getElem? hp)
      simpa using this
    rw [h2, shuffleL_map, List.getElem?_map, hp]
    simp [hpl]
  · intro p hp
    obtain ⟨js, hj, hu⟩ := fy_unique n (List.range n) p (by simp) List.nodup_range hp
    exact ⟨js, hj, fun ks hk => hu ks hk.1 hk.2⟩

/-! ## A concrete case: three elements, six draws, six arrangements -/

/-- The results of all draws. -/
def shuffleResults (xs : List Nat) : List (List Nat) :=
  (allDraws xs.length).map (fun js =>
    match shuffle ⟨0, xs.length, xs.length⟩ (fyPairs xs.length js) { cell := fun i => xs.getD i 0, top := xs.length } with
    | .ok _ m' => Sl.read m' ⟨0, xs.length, xs.length⟩
    | _ => [])

example : shuffleResults [1, 2, 3] = [[2, 3, 1], [3, 2, 1], [3, 1, 2], [1, 3, 2], [2, 1, 3], [1, 2, 3]] := by decide +kernel
example : FYDraws 3 [0, 1] ∧ fyPairs 3 [0, 1] = [(2, 0), (1, 1)] := by simp [FYDraws, fyPairs]
/-- Equal elements: each of the three arrangements comes from two draws. -/
example : shuffleResults [7, 7, 8] = [[7, 8, 7], [8, 7, 7], [8, 7, 7], [7, 8, 7], [7, 7, 8], [7, 7, 8]] := by decide +kernel

end Stl4go
