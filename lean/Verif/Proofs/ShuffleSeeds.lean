import Verif.Proofs.Shuffle
/-!
# Proofs: how many arrangements a generator with few states can give
-/
namespace Stl4go
variable {T : Type}

/-- A list without repetitions is not longer than a list that has all its members. -/
theorem nodup_fits {α : Type} : ∀ (l k : List α), l.Nodup → (∀ x ∈ l, x ∈ k) → l.length ≤ k.length
  | [], k, _, _ => Nat.zero_le _
  | x :: l, k, hn, hs => by
    obtain ⟨hx, hn⟩ := List.nodup_cons.1 hn
    obtain ⟨p, q, rfl⟩ := List.append_of_mem (hs x List.mem_cons_self)
    have := nodup_fits l (p ++ q) hn (fun y hy => by
      have h := hs y (List.mem_cons_of_mem _ hy)
      have hne : y ≠ x := fun h => hx (h ▸ hy)
      simp only [List.mem_append, List.mem_cons] at h ⊢
      rcases h with h | h | h
      · exact .inl h
      · exact absurd h hne
      · exact .inr h)
    simp only [List.length_append, List.length_cons] at this ⊢
    omega

/-- Mapping with a function that keeps the members apart makes no repetitions. -/
theorem nodup_map_on {α β : Type} (f : α → β) : ∀ l : List α, l.Nodup → (∀ x ∈ l, ∀ y ∈ l, f x = f y → x = y) → (l.map f).Nodup
  | [], _, _ => List.nodup_nil
  | x :: l, hn, hf => by
    obtain ⟨hx, hn⟩ := List.nodup_cons.1 hn
    refine List.nodup_cons.2 ⟨fun h => ?_, nodup_map_on f l hn (fun y hy z hz => hf y (List.mem_cons_of_mem _ hy) z (List.mem_cons_of_mem _ hz))⟩
    obtain ⟨y, hy, he⟩ := List.mem_map.1 h
    exact hx (hf y (List.mem_cons_of_mem _ hy) x List.mem_cons_self he ▸ hy)

/-- The arrangements of `xs` that the possible draws give. -/
def arrangements (xs : List T) : List (List T) := (allDraws xs.length).map (fun js => shuffleL xs (fyPairs xs.length js))

theorem arrangements_length (xs : List T) : (arrangements xs).length = fac xs.length := by
  simp [arrangements, allDraws_length]

theorem mem_arrangements_perm {xs ys : List T} (h : ys ∈ arrangements xs) : ys.Perm xs := by
  obtain ⟨js, _, rfl⟩ := List.mem_map.1 h
  exact shuffleL_perm _ _

theorem arrangements_nodup {xs : List T} (hn : xs.Nodup) : (arrangements xs).Nodup := by
  refine nodup_map_on _ _ (allDraws_nodup _) (fun js hj ks hk he => ?_)
  obtain ⟨is, _, hu⟩ := fy_unique xs.length xs (shuffleL xs (fyPairs xs.length js)) rfl hn (shuffleL_perm _ _)
  rw [hu js ((mem_allDraws _ _).1 hj) rfl, hu ks ((mem_allDraws _ _).1 hk) he.symm]

theorem fac_pos : ∀ n, 0 < fac n
  | 0 => Nat.one_pos
  | n + 1 => Nat.mul_pos (Nat.succ_pos n) (fac_pos n)

theorem fac_mono {n k : Nat} (h : n ≤ k) : fac n ≤ fac k := by
  induction h with
  | refl => exact Nat.le_refl _
  | @step k _ ih => exact Nat.le_trans ih (Nat.le_mul_of_pos_left _ (Nat.succ_pos k))

/-- How many of the arrangements are missed. -/
theorem arrangements_missed [DecidableEq T] {xs : List T} (hn : xs.Nodup) (results : List (List T)) :
    ∃ missed : List (List T), missed.Nodup ∧ (∀ ys ∈ missed, ys.Perm xs ∧ ys ∉ results) ∧ fac xs.length ≤ missed.length + results.length := by
  refine ⟨(arrangements xs).filter (fun y => !decide (y ∈ results)), (arrangements_nodup hn).filter _, fun y hy => ?_, ?_⟩
  · obtain ⟨h1, h2⟩ := List.mem_filter.1 hy
    exact ⟨mem_arrangements_perm h1, by simpa using h2⟩
  · have h := nodup_fits (arrangements xs) ((arrangements xs).filter (fun y => !decide (y ∈ results)) ++ results) (arrangements_nodup hn)
      (fun y hy => by
        by_cases hr : y ∈ results
        · exact List.mem_append_right _ hr
        · exact List.mem_append_left _ (List.mem_filter.2 ⟨hy, by simpa using hr⟩))
    rwa [arrangements_length, List.length_append] at h

end Stl4go
