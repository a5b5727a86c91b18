import Verif.Proofs.ShuffleSeeds
import Verif.Spec.FewSwaps
/-!
# Proofs: how many swaps an arrangement takes
-/
namespace Stl4go
variable {T : Type}

theorem swapAt_ok {a : Sl} {i j : Nat} {m m' : Mem T} (h : swapAt a i j m = .ok () m') : i < a.len ∧ j < a.len := by
  by_cases hj : j < a.len
  · by_cases hi : i < a.len
    · exact ⟨hi, hj⟩
    · simp [swapAt, GoM.bind_def, Sl.get, hi, hj] at h
  · simp [swapAt, GoM.bind_def, Sl.get, hj] at h

/-- Swaps that are made without a panic are made inside the slice. -/
theorem shuffle_ok (a : Sl) : ∀ (ds : List (Nat × Nat)) (m m' : Mem T), shuffle a ds m = .ok () m' → ∀ d ∈ ds, d.1 < a.len ∧ d.2 < a.len
  | [], _, _, _ => fun _ h => nomatch h
  | (i, j) :: ds, m, m', h => by
    simp only [shuffle, GoM.bind_def] at h
    cases hs : swapAt a i j m with
    | ok u m1 =>
      rw [hs] at h
      intro d hd
      rcases List.mem_cons.1 hd with rfl | hd
      · exact swapAt_ok hs
      · exact shuffle_ok a ds m1 m' h d hd
    | panic m1 => rw [hs] at h; cases h
    | diverge => rw [hs] at h; cases h

/-- What the slice holds after swaps that are made without a panic. -/
theorem shuffle_result {a : Sl} {ds : List (Nat × Nat)} {m m' : Mem T} (h : shuffle a ds m = .ok () m') :
    a.read m' = shuffleL (a.read m) ds := by
  have hl : (a.read m).length = a.len := by simp
  have h1 := shuffle_run a m ds (a.read m) hl (shuffle_ok a ds m m' h)
  rw [Sl.write_read, h] at h1
  cases h1
  exact Sl.read_write_self _ _ _ ((shuffleL_perm _ _).length_eq.trans hl)

/-- Where the element that is at a position after a swap was before. -/
theorem swapL_from (l : List T) (i j p : Nat) :
    (swapL l i j)[p]? = l[p]? ∨ p = i ∧ (swapL l i j)[p]? = l[j]? ∨ p = j ∧ (swapL l i j)[p]? = l[i]? := by
  unfold swapL
  split
  · rename_i h
    by_cases h1 : p = j
    · subst h1
      exact .inr (.inr ⟨rfl, by rw [List.getElem?_set_self (by simpa using h.2), List.getElem?_eq_getElem h.1]⟩)
    · by_cases h2 : p = i
      · subst h2
        exact .inr (.inl ⟨rfl, by rw [List.getElem?_set_ne (Ne.symm h1), List.getElem?_set_self h.1, List.getElem?_eq_getElem h.2]⟩)
      · exact .inl (by rw [List.getElem?_set_ne (Ne.symm h1), List.getElem?_set_ne (Ne.symm h2)])
  · exact .inl rfl

/-- An element never leaves the positions that swaps connect with its own. -/
theorem shuffleL_from (c : Nat → Nat) : ∀ (ds : List (Nat × Nat)) (xs : List T) (p : Nat), (∀ d ∈ ds, c d.1 = c d.2) →
    ∃ q, c q = c p ∧ (shuffleL xs ds)[p]? = xs[q]?
  | [], _, p, _ => ⟨p, rfl, rfl⟩
  | d :: ds, xs, p, h => by
    obtain ⟨q, hq, he⟩ := shuffleL_from c ds (swapL xs d.1 d.2) p (fun e he => h e (List.mem_cons_of_mem _ he))
    have hd := h d List.mem_cons_self
    rcases swapL_from xs d.1 d.2 q with h1 | ⟨rfl, h1⟩ | ⟨rfl, h1⟩
    · exact ⟨q, hq, he.trans h1⟩
    · exact ⟨_, hd.symm.trans hq, he.trans h1⟩
    · exact ⟨_, hd.trans hq, he.trans h1⟩

/-- A position that occurs in no swap keeps its element. -/
theorem shuffleL_keeps : ∀ (ds : List (Nat × Nat)) (xs : List T) (p : Nat), p ∉ ds.flatMap (fun d => [d.1, d.2]) →
    (shuffleL xs ds)[p]? = xs[p]?
  | [], _, _, _ => rfl
  | d :: ds, xs, p, h => by
    simp only [List.flatMap_cons, List.mem_append, List.mem_cons, List.not_mem_nil, or_false, not_or] at h
    rw [shuffleL, shuffleL_keeps ds _ p h.2]
    rcases swapL_from xs d.1 d.2 p with h1 | ⟨rfl, _⟩ | ⟨rfl, _⟩
    · exact h1
    · exact absurd rfl h.1.1
    · exact absurd rfl h.1.2

theorem drop_label (c : Nat → Nat) (v : Nat) : ∀ ps : List Nat, (ps.map c).Nodup → ps.length ≤ (ps.filter (fun p => c p != v)).length + 1
  | [], _ => Nat.zero_le _
  | p :: ps, h => by
    obtain ⟨h1, h2⟩ := List.nodup_cons.1 h
    by_cases hp : c p = v
    · have : ps.filter (fun p => c p != v) = ps := List.filter_eq_self.2 (fun q hq => by
        have : c q ≠ v := fun e => h1 (by rw [hp, ← e]; exact List.mem_map_of_mem hq)
        simpa using this)
      rw [List.filter_cons_of_neg (by simpa using hp), this, List.length_cons]
      exact Nat.le_refl _
    · rw [List.filter_cons_of_pos (by simpa using hp), List.length_cons, List.length_cons]
      exact Nat.succ_le_succ (drop_label c v ps h2)

/-- Each swap connects at most two groups of positions: `k` swaps leave at least `n - k` groups. -/
theorem groups_left (n : Nat) : ∀ ds : List (Nat × Nat), ∃ c : Nat → Nat, (∀ d ∈ ds, c d.1 = c d.2) ∧
    ∃ ps : List Nat, (∀ p ∈ ps, p < n) ∧ (ps.map c).Nodup ∧ n ≤ ps.length + ds.length
  | [] => ⟨id, (fun _ h => nomatch h), List.range n, fun _ h => List.mem_range.1 h, by simpa using List.nodup_range, by simp⟩
  | d :: ds => by
    obtain ⟨c, hc, ps, hp, hn, hl⟩ := groups_left n ds
    refine ⟨fun x => if c x = c d.1 then c d.2 else c x, ?_, ps.filter (fun p => c p != c d.1), ?_, ?_, ?_⟩
    · intro e he
      rcases List.mem_cons.1 he with rfl | he
      · by_cases h : c e.2 = c e.1 <;> simp [h]
      · simp only [hc e he]
    · exact fun p h => hp p (List.mem_filter.1 h).1
    · have : (ps.filter (fun p => c p != c d.1)).map (fun x => if c x = c d.1 then c d.2 else c x) = (ps.filter (fun p => c p != c d.1)).map c :=
        List.map_congr_left (fun p h => if_neg (by simpa using (List.mem_filter.1 h).2))
      rw [this]
      exact hn.sublist (List.filter_sublist.map c)
    · have := drop_label c (c d.1) ps hn
      rw [List.length_cons]
      omega

/-- Moving the first element behind the others takes at least `n - 1` swaps. -/
theorem rotate_takes {x : T} {xs : List T} (hn : (x :: xs).Nodup) {ds : List (Nat × Nat)} (h : shuffleL (x :: xs) ds = xs ++ [x]) :
    xs.length ≤ ds.length := by
  refine Nat.le_of_not_lt (fun hlt => ?_)
  obtain ⟨c, hc, ps, hp, hnd, hl⟩ := groups_left (xs.length + 1) ds
  have step : ∀ p, p < xs.length → c (p + 1) = c p := by
    intro p hpl
    obtain ⟨q, hq, he⟩ := shuffleL_from c ds (x :: xs) p hc
    rw [h, List.getElem?_append_left hpl] at he
    have h1 : (x :: xs)[p + 1]? = (x :: xs)[q]? := by rw [List.getElem?_cons_succ]; exact he
    have h2 : p + 1 = q := (List.getElem?_inj (by simpa using hpl) hn).1 h1
    rw [h2, hq]
  have all : ∀ p, p < xs.length + 1 → c p = c 0 := by
    intro p
    induction p with
    | zero => exact fun _ => rfl
    | succ p ih => exact fun hp => (step p (by omega)).trans (ih (by omega))
  match ps, hp, hnd, hl with
  | [], _, _, hl => simp at hl; omega
  | [_], _, _, hl => simp at hl; omega
  | p :: q :: ps, hp, hnd, _ =>
    simp only [List.map_cons, List.nodup_cons, List.mem_cons, not_or] at hnd
    exact hnd.1.1 ((all p (hp p (by simp))).trans (all q (hp q (by simp))).symm)

theorem flatMap_ends_length : ∀ ds : List (Nat × Nat), (ds.flatMap (fun d => [d.1, d.2])).length = 2 * ds.length
  | [] => rfl
  | d :: ds => by simp only [List.flatMap_cons, List.length_append, List.length_cons, List.length_nil, flatMap_ends_length ds]; omega

/-- Every two elements that are moved take a swap. -/
theorem moved_take {xs : List T} {ds : List (Nat × Nat)} (ps : List Nat) (hn : ps.Nodup) (h : ∀ p ∈ ps, (shuffleL xs ds)[p]? ≠ xs[p]?) :
    ps.length ≤ 2 * ds.length := by
  rw [← flatMap_ends_length]
  exact nodup_fits ps _ hn (fun p hp => Classical.byContradiction (fun hc => h p hp (shuffleL_keeps ds xs p hc)))

theorem reverse_takes {xs : List T} (hn : xs.Nodup) {ds : List (Nat × Nat)} (h : shuffleL xs ds = xs.reverse) : xs.length / 2 ≤ ds.length := by
  have h1 := drop_label (fun p => 2 * p + 1) xs.length (List.range xs.length)
    (nodup_map_on _ _ List.nodup_range (fun x _ y _ h => by omega))
  have h2 := moved_take (xs := xs) (ds := ds) ((List.range xs.length).filter (fun p => 2 * p + 1 != xs.length)) (List.nodup_range.filter _)
    (fun p hp => by
      obtain ⟨hp, hne⟩ := List.mem_filter.1 hp
      have hp := List.mem_range.1 hp
      have hne : 2 * p + 1 ≠ xs.length := by simpa using hne
      rw [h, List.getElem?_reverse hp]
      intro he
      have := (List.getElem?_inj (by omega) hn).1 he
      omega)
  rw [List.length_range] at h1
  omega

theorem fyPairs_length : ∀ (n : Nat) (js : List Nat), FYDraws n js → (fyPairs n js).length = n - 1
  | 0, [], _ => rfl
  | 1, [], _ => rfl
  | n + 2, j :: js, h => by
    rw [fyPairs, List.length_cons, show n + 2 - 1 = n + 1 from rfl, fyPairs_length (n + 1) js h.2]
    rfl

/-- The loop of `Reverse` makes the swaps of `mirrorPairs`. -/
theorem reverseLoop_swaps (a : Sl) : ∀ (fuel i : Nat), a.len / 2 - i < fuel → i ≤ a.len / 2 →
    (reverseLoop a fuel i ((a.len : Int) - 1 - i) : GoM (Mem T) Unit) =
      shuffle a ((List.range' i (a.len / 2 - i)).map (fun i => (i, a.len - 1 - i)))
  | 0, _, h, _ => absurd h (Nat.not_lt_zero _)
  | fuel + 1, i, h, hi => by
    by_cases hlt : i < a.len / 2
    · have e1 : a.len / 2 - i = (a.len / 2 - (i + 1)) + 1 := by omega
      have h1 : ((i : Int)) < (a.len : Int) - 1 - i := by omega
      have e2 : ((a.len : Int) - 1 - i) = ((a.len - 1 - i : Nat) : Int) := by omega
      have e3 : ((a.len : Int) - 1 - i - 1) = (a.len : Int) - 1 - ((i + 1 : Nat) : Int) := by omega
      rw [reverseLoop, if_pos h1, e1, List.range'_succ, List.map_cons, shuffle, e3]
      rw [show ((i : Int) + 1) = ((i + 1 : Nat) : Int) from rfl, reverseLoop_swaps a fuel (i + 1) (by omega) (by omega), e2]
    · have e1 : a.len / 2 - i = 0 := by omega
      have h1 : ¬ ((i : Int)) < (a.len : Int) - 1 - i := by omega
      rw [reverseLoop, if_neg h1, e1]
      rfl

theorem reverse_swaps (a : Sl) : (reverse a : GoM (Mem T) Unit) = shuffle a (mirrorPairs a.len) := by
  have := reverseLoop_swaps (T := T) a (a.len + 1) 0 (by omega) (by omega)
  simp only [Int.ofNat_zero, Int.sub_zero, Nat.sub_zero] at this
  rw [mirrorPairs, List.range_eq_range']
  exact this

end Stl4go
